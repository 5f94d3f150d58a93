import Verif.Java

/-
C39, C40, C52, C53: Java class files.
-/
namespace Verif.Java

/-! ## C39: integers and strings -/

/-- The number whose digits, most significant first, to the base 256 are given. -/
def value (l : Bytes) : Nat := l.foldl (fun a b => a * 256 + b.toNat) 0

private theorem foldl_value (l : Bytes) (a : Nat) :
    l.foldl (fun a b => a * 256 + b.toNat) a = a * 256 ^ l.length + value l := by
  induction l generalizing a with
  | nil => simp [value]
  | cons b l ih =>
    simp only [List.foldl_cons, value, List.length_cons]
    rw [ih, ih (0 * 256 + b.toNat), Nat.pow_succ]
    simp only [Nat.zero_mul, Nat.zero_add, Nat.add_mul, Nat.mul_assoc, Nat.mul_comm 256]
    omega

private theorem putBE_length (n v : Nat) : (putBE n v).length = n := by
  induction n with
  | zero => rfl
  | succ n ih => simp [putBE, ih]

private theorem shift (v n : Nat) : v >>> (8 * n) = v / 256 ^ n := by
  rw [Nat.shiftRight_eq_div_pow, Nat.pow_mul]

private theorem putBE_value (n v : Nat) : value (putBE n v) = v % 256 ^ n := by
  induction n with
  | zero => simp [putBE, value, Nat.mod_one]
  | succ n ih =>
    have : value (putBE (n + 1) v) = (v / 256 ^ n % 256) * 256 ^ n + value (putBE n v) := by
      simp only [putBE, value, List.foldl_cons, Nat.zero_mul, Nat.zero_add]
      rw [foldl_value, putBE_length, shift, UInt8.toNat_ofNat']
      rfl
    rw [this, ih, Nat.pow_succ, Nat.mod_mul, Nat.mul_comm]
    omega

private theorem or_add (a b : Nat) (h : b < 256) : (a <<< 8) ||| (255 &&& b) = a * 256 + b := by
  have h1 : 255 &&& b = b := by
    rw [Nat.and_comm]
    have := Nat.and_two_pow_sub_one_eq_mod b 8
    simp only [Nat.reducePow, Nat.reduceSub] at this
    rw [this]
    omega
  rw [h1, ← Nat.shiftLeft_add_eq_or_of_lt (i := 8) (by simpa using h) a, Nat.shiftLeft_eq]

private theorem getBE_putBE (w n acc v : Nat) (s : Bytes) (h : acc * 256 ^ n + v % 256 ^ n < 2 ^ w) :
    getBE w n acc (putBE n v ++ s) = .ok (acc * 256 ^ n + v % 256 ^ n, s) := by
  induction n generalizing acc with
  | zero => simp [getBE, putBE, Nat.mod_one]
  | succ n ih =>
    have hmod : v % 256 ^ (n + 1) = v % 256 ^ n + 256 ^ n * (v / 256 ^ n % 256) := by
      rw [Nat.pow_succ, Nat.mod_mul]
    have hb : (UInt8.ofNat (v >>> (8 * n))).toNat = v / 256 ^ n % 256 := by
      rw [shift, UInt8.toNat_ofNat']
    simp only [getBE, putBE, List.cons_append, getByte, R.bind, hb]
    rw [or_add _ _ (Nat.mod_lt _ (by omega))]
    have heq : (acc * 256 + v / 256 ^ n % 256) * 256 ^ n + v % 256 ^ n
        = acc * 256 ^ (n + 1) + v % 256 ^ (n + 1) := by
      rw [hmod, Nat.pow_succ, Nat.add_mul, Nat.mul_assoc, Nat.mul_comm 256,
        Nat.mul_comm (v / 256 ^ n % 256)]
      omega
    have hle : acc * 256 + v / 256 ^ n % 256 ≤ (acc * 256 + v / 256 ^ n % 256) * 256 ^ n :=
      Nat.le_mul_of_pos_right _ (Nat.pow_pos (by omega))
    rw [Nat.mod_eq_of_lt (by omega), ih _ (by rw [heq]; exact h), heq]

private theorem rt (n v : Nat) (s : Bytes) (hv : v < 256 ^ n) :
    getBE (8 * n) n 0 (putBE n v ++ s) = .ok (v, s) := by
  have h : 0 * 256 ^ n + v % 256 ^ n = v := by rw [Nat.mod_eq_of_lt hv]; omega
  have h2 : (2 : Nat) ^ (8 * n) = 256 ^ n := by rw [Nat.pow_mul]
  rw [getBE_putBE _ _ _ _ _ (by rw [h, h2]; exact hv), h]

private theorem rt2 (v : Nat) (s : Bytes) (hv : v < 2 ^ 16) : getU2 (putU2 v ++ s) = .ok (v, s) :=
  rt 2 v s (by simpa using hv)
private theorem rt4 (v : Nat) (s : Bytes) (hv : v < 2 ^ 32) : getU4 (putU4 v ++ s) = .ok (v, s) :=
  rt 4 v s (by simpa using hv)
private theorem rt8 (v : Nat) (s : Bytes) (hv : v < 2 ^ 64) : getU8 (putU8 v ++ s) = .ok (v, s) :=
  rt 8 v s (by simpa using hv)

/-- Integers are written most significant byte first and in the right number of bytes. -/
theorem C39_big_endian :
    (∀ v, v < 2 ^ 16 → (putU2 v).length = 2 ∧ value (putU2 v) = v) ∧
    (∀ v, v < 2 ^ 32 → (putU4 v).length = 4 ∧ value (putU4 v) = v) ∧
    (∀ v, v < 2 ^ 64 → (putU8 v).length = 8 ∧ value (putU8 v) = v) := by
  refine ⟨fun v h => ⟨putBE_length .., ?_⟩, fun v h => ⟨putBE_length .., ?_⟩,
    fun v h => ⟨putBE_length .., ?_⟩⟩
  · rw [putU2, putBE_value, Nat.mod_eq_of_lt (by simpa using h)]
  · rw [putU4, putBE_value, Nat.mod_eq_of_lt (by simpa using h)]
  · rw [putU8, putBE_value, Nat.mod_eq_of_lt (by simpa using h)]

/-- Every value of every width reads back, whatever follows it. -/
theorem C39_integers (s : Bytes) :
    (∀ v, v < 2 ^ 16 → getU2 (putU2 v ++ s) = .ok (v, s)) ∧
    (∀ v, v < 2 ^ 32 → getU4 (putU4 v ++ s) = .ok (v, s)) ∧
    (∀ v, v < 2 ^ 64 → getU8 (putU8 v ++ s) = .ok (v, s)) :=
  ⟨fun v => rt2 v s, fun v => rt4 v s, fun v => rt8 v s⟩

example : putU4 0xCAFEBABE = [0xCA, 0xFE, 0xBA, 0xBE] ∧
    getU4 [0xCA, 0xFE, 0xBA, 0xBE, 9] = .ok (0xCAFEBABE, [9]) := ⟨rfl, rfl⟩

private theorem ofU2_small (n : Nat) (h : n < 32768) : ofU2 (toU2 n) = .ofNat n := by
  unfold ofU2 toU2
  rw [Nat.mod_eq_of_lt (by omega), if_pos h]; rfl

private theorem ofU2_neg (v : Nat) (h : 32768 ≤ v) (h2 : v < 65536) : ∃ k, ofU2 v = .negSucc k := by
  unfold ofU2
  rw [if_neg (by omega)]
  refine ⟨65535 - v, ?_⟩
  rw [Int.negSucc_eq]
  omega

private theorem rtStr (s r : Bytes) (h : s.length < 32768) :
    putStr s = .ok (putU2 s.length ++ s) ∧ getStr ((putU2 s.length ++ s) ++ r) = .ok (s, r) := by
  have hm : toU2 s.length = s.length := Nat.mod_eq_of_lt (by omega)
  have ho := ofU2_small _ h
  constructor
  · unfold putStr
    rw [ho, hm]
    simp
  · unfold getStr
    rw [List.append_assoc, rt2 _ _ (by simp; omega)]
    rw [hm] at ho
    simp only [R.bind, ho, getRaw]
    simp

/-- Strings shorter than 32768 bytes: a two byte length, the bytes, and they read back. -/
theorem C39_strings_partial (s rest : Bytes) (h : s.length < 32768) :
    ∃ b, putStr s = .ok b ∧ b.length = 2 + s.length ∧ value (b.take 2) = s.length ∧
      b.drop 2 = s ∧ getStr (b ++ rest) = .ok (s, rest) := by
  refine ⟨_, (rtStr s rest h).1, ?_, ?_, ?_, (rtStr s rest h).2⟩
  · simp [putU2, putBE_length]
  · rw [List.take_append_of_le_length (by simp [putU2, putBE_length])]
    rw [List.take_of_length_le (by simp [putU2, putBE_length])]
    exact (C39_big_endian.1 _ (by simp; omega)).2
  · rw [List.drop_append_of_le_length (by simp [putU2, putBE_length])]
    simp [List.drop_of_length_le, putU2, putBE_length]

example : putStr [65, 66] = .ok [0, 2, 65, 66] ∧ getStr [0, 2, 65, 66, 7] = .ok ([65, 66], [7]) :=
  ⟨rfl, rfl⟩

/-- Strings of 32768 to 65535 bytes: the length is taken for negative; packing one is undefined and
reading one, written by anybody, throws. -/
theorem C39_long_strings_fail (s rest : Bytes) (h : 32768 ≤ s.length) (h2 : s.length < 65536) :
    putStr s = .ub ∧ getStr (putU2 s.length ++ s ++ rest) = .throw := by
  have hm : toU2 s.length = s.length := Nat.mod_eq_of_lt h2
  obtain ⟨k, hk⟩ := ofU2_neg _ h h2
  constructor
  · unfold putStr
    rw [hm, hk]
  · unfold getStr
    rw [List.append_assoc, rt2 _ _ (by simpa using h2)]
    simp only [R.bind, hk]

example : ∃ s : Bytes, 32768 ≤ s.length ∧ s.length < 65536 :=
  ⟨List.replicate 40000 65, by rw [List.length_replicate]; omega, by rw [List.length_replicate]; omega⟩

/-- A longer string is not rejected: it is cut off. -/
theorem C39_overlong_strings_cut (s : Bytes) (h : 65536 ≤ s.length) (h2 : s.length < 65536 + 32768) :
    putStr s = .ok (putU2 (s.length - 65536) ++ s.take (s.length - 65536)) := by
  have hm : toU2 s.length = s.length - 65536 := by unfold toU2; omega
  unfold putStr
  rw [hm]
  have : ofU2 (s.length - 65536) = .ofNat (s.length - 65536) := by
    unfold ofU2; rw [if_pos (by omega)]; rfl
  rw [this]

/-- A 64 bit value put into a u8 by construction or assignment loses its upper half. -/
theorem C39_u8_assign_fails (n : Nat) (h : 2 ^ 32 ≤ n) (s : Bytes) :
    ∃ v, getU8 (putU8 (u8Assign n) ++ s) = .ok (v, s) ∧ v ≠ n := by
  have hlt : u8Assign n < 2 ^ 32 := Nat.mod_lt _ (by decide)
  refine ⟨u8Assign n, rt8 _ _ (Nat.lt_trans hlt (by decide)), ?_⟩
  omega

/-! ## C40: constant pool -/

/-- Reads back. -/
private def Rt {α : Type} (put : α → R Bytes) (get : Get α) (a : α) : Prop :=
  ∃ b, put a = .ok b ∧ ∀ s, get (b ++ s) = .ok (a, s)

/-- Integer fields are in range, strings short. -/
def InfoOk : Info → Prop
  | .null => True
  | .u2 v => v < 2 ^ 16
  | .ref a b => a < 2 ^ 16 ∧ b < 2 ^ 16
  | .u4 v => v < 2 ^ 32
  | .u8 v => v < 2 ^ 64
  | .nameType a b => a < 2 ^ 16 ∧ b < 2 ^ 16
  | .utf8 s => s.length < 32768

/-- The tag says what the entry holds. -/
def Typed (e : Entry) : Prop :=
  match e.info with
  | .null => False
  | .u2 _ => e.tag = 7 ∨ e.tag = 8
  | .ref .. => e.tag = 9 ∨ e.tag = 10 ∨ e.tag = 11
  | .u4 _ => e.tag = 3 ∨ e.tag = 4
  | .u8 _ => e.tag = 5 ∨ e.tag = 6
  | .nameType .. => e.tag = 12
  | .utf8 _ => e.tag = 1

def EntryOk (e : Entry) : Prop := Typed e ∧ InfoOk e.info

private theorem kinds : kind 7 = .index ∧ kind 8 = .index ∧ kind 9 = .ref ∧ kind 10 = .ref ∧
    kind 11 = .ref ∧ kind 3 = .int ∧ kind 4 = .int ∧ kind 5 = .long ∧ kind 6 = .long ∧
    kind 12 = .nameType ∧ kind 1 = .utf8 := by decide

private theorem rtEntry (old e : Entry) (h : EntryOk e) : Rt putEntry (getEntry old) e := by
  obtain ⟨t, i⟩ := e
  obtain ⟨ht, hi⟩ := h
  cases i with
  | null => exact ht.elim
  | u2 v =>
    have hk : kind t = .index := by rcases ht with h | h <;> (simp only at h; rw [h]; decide)
    refine ⟨t :: putU2 v, by simp [putEntry, hk], fun s => ?_⟩
    simp only [getEntry, List.cons_append, getByte, R.bind, hk]
    rw [rt2 v s hi]
  | ref a b =>
    have hk : kind t = .ref := by rcases ht with h | h | h <;> (simp only at h; rw [h]; decide)
    refine ⟨t :: (putU2 a ++ putU2 b), by simp [putEntry, hk], fun s => ?_⟩
    simp only [getEntry, List.cons_append, getByte, R.bind, hk, List.append_assoc]
    rw [rt2 a _ hi.1]
    simp only
    rw [rt2 b s hi.2]
  | u4 v =>
    have hk : kind t = .int := by rcases ht with h | h <;> (simp only at h; rw [h]; decide)
    refine ⟨t :: putU4 v, by simp [putEntry, hk], fun s => ?_⟩
    simp only [getEntry, List.cons_append, getByte, R.bind, hk]
    rw [rt4 v s hi]
  | u8 v =>
    have hk : kind t = .long := by rcases ht with h | h <;> (simp only at h; rw [h]; decide)
    refine ⟨t :: putU8 v, by simp [putEntry, hk], fun s => ?_⟩
    simp only [getEntry, List.cons_append, getByte, R.bind, hk]
    rw [rt8 v s hi]
  | nameType a b =>
    have hk : kind t = .nameType := by simp only [Typed] at ht; rw [ht]; decide
    refine ⟨t :: (putU2 a ++ putU2 b), by simp [putEntry, hk], fun s => ?_⟩
    simp only [getEntry, List.cons_append, getByte, R.bind, hk, List.append_assoc]
    rw [rt2 a _ hi.1]
    simp only
    rw [rt2 b s hi.2]
  | utf8 v =>
    have hk : kind t = .utf8 := by simp only [Typed] at ht; rw [ht]; decide
    refine ⟨t :: (putU2 v.length ++ v), by simp [putEntry, hk, (rtStr v [] hi).1, R.bind], fun s => ?_⟩
    simp only [getEntry, List.cons_append, getByte, R.bind, hk]
    rw [(rtStr v s hi).2]

private theorem rtAll {α : Type} (put : α → R Bytes) (get : Get α) (l : List α)
    (h : ∀ a ∈ l, Rt put get a) : ∃ b, putAll put l = .ok b ∧ ∀ s, getAll get l.length (b ++ s) = .ok (l, s) := by
  induction l with
  | nil => exact ⟨[], rfl, fun s => rfl⟩
  | cons a l ih =>
    obtain ⟨x, hx, hx'⟩ := h a (by simp)
    obtain ⟨y, hy, hy'⟩ := ih (fun b hb => h b (by simp [hb]))
    refine ⟨x ++ y, by simp [putAll, hx, hy, R.bind], fun s => ?_⟩
    simp only [List.length_cons, getAll, List.append_assoc, hx', R.bind, hy']

private theorem putAll_length {α : Type} (put : α → R Bytes) (l : List α) (b : Bytes)
    (hpos : ∀ a ∈ l, ∀ x, put a = .ok x → 1 ≤ x.length) (h : putAll put l = .ok b) : l.length ≤ b.length := by
  induction l generalizing b with
  | nil => simp
  | cons a l ih =>
    simp only [putAll] at h
    generalize hx : put a = x at h
    cases x with
    | throw => simp [R.bind] at h
    | ub => simp [R.bind] at h
    | ok x =>
      simp only [R.bind] at h
      generalize hy : putAll put l = y at h
      cases y with
      | throw => simp at h
      | ub => simp at h
      | ok y =>
        simp only [R.ok.injEq] at h
        subst h
        have h1 := hpos a (by simp) x hx
        have h2 := ih y (fun c hc => hpos c (by simp [hc])) hy
        simp only [List.length_cons, List.length_append]
        omega

/-- A constant pool with fewer than 32768 entries, the zeroth the null one. -/
def PoolOk (p : List Entry) : Prop :=
  p.length < 32768 ∧ ∃ q, p = Entry.null :: q ∧ ∀ e ∈ q, EntryOk e

private theorem rtPool (p : List Entry) (h : PoolOk p) : Rt putPool getPool p := by
  obtain ⟨hl, q, rfl, hq⟩ := h
  have ho := ofU2_small _ hl
  have hm : toU2 (Entry.null :: q).length = (Entry.null :: q).length := Nat.mod_eq_of_lt (by omega)
  obtain ⟨b, hb, hb'⟩ := rtAll putEntry (getEntry .null) q (fun e he => rtEntry .null e (hq e he))
  have hn : (ofU2 (toU2 (Entry.null :: q).length)).toNat = (Entry.null :: q).length := by rw [ho]; rfl
  refine ⟨putU2 (Entry.null :: q).length ++ b, ?_, fun s => ?_⟩
  · unfold putPool
    rw [hn, List.take_length, List.drop_succ_cons, List.drop_zero, hb, hm]
    rfl
  · unfold getPool
    rw [List.append_assoc, rt2 _ _ (by simp at hl ⊢; omega)]
    simp only [R.bind]
    rw [hm] at ho
    rw [ho]
    simp only [List.length_cons]
    rw [hb']

/-- A constant pool reads back. -/
theorem C40_pool_partial (p : List Entry) (rest : Bytes) (h : PoolOk p) :
    ∃ b, putPool p = .ok b ∧ getPool (b ++ rest) = .ok (p, rest) := by
  obtain ⟨b, h1, h2⟩ := rtPool p h
  exact ⟨b, h1, h2 rest⟩

/-- With 32768 entries or more (the format allows 65535) nothing but the count is written, and a
pool of that size written by anybody cannot be read. -/
theorem C40_pool_size_fails (p : List Entry) (h : 32768 ≤ p.length) (h2 : p.length < 65536) (rest : Bytes) :
    putPool p = .ok (putU2 p.length) ∧ getPool (putU2 p.length ++ rest) = .throw := by
  have hm : toU2 p.length = p.length := Nat.mod_eq_of_lt h2
  obtain ⟨k, hk⟩ := ofU2_neg _ h h2
  constructor
  · unfold putPool
    rw [hm, hk]
    simp [putAll, R.bind]
  · unfold getPool
    rw [rt2 _ _ (by simpa using h2)]
    simp only [R.bind, hk]

/-- Things that are added to a class: entries, methods; and the two flag settings. -/
inductive Op
  | push (e : Entry)
  | method (name descr : Bytes)
  | native
  | interface

def Op.apply (c : ClassFile) : Op → ClassFile
  | .push e => { c with pool := c.pool ++ [e] }
  | .method n d => addMethod c n d
  | .native => makeNative c
  | .interface => makeInterface c

private theorem apply_prefix (c : ClassFile) (op : Op) : ∃ l, (op.apply c).pool = c.pool ++ l := by
  cases op with
  | push e => exact ⟨[e], rfl⟩
  | method n d => exact ⟨_, rfl⟩
  | native => exact ⟨[], by simp [Op.apply, makeNative]⟩
  | interface => exact ⟨[], by simp [Op.apply, makeInterface]⟩

private theorem run_prefix (ops : List Op) (c : ClassFile) :
    ∃ l, (ops.foldl Op.apply c).pool = c.pool ++ l := by
  induction ops generalizing c with
  | nil => exact ⟨[], by simp⟩
  | cons op ops ih =>
    obtain ⟨l, hl⟩ := apply_prefix c op
    obtain ⟨m, hm⟩ := ih (op.apply c)
    exact ⟨l ++ m, by rw [List.foldl_cons, hm, hl, List.append_assoc]⟩

/-- Entries are never moved, whatever is added afterwards. -/
theorem C40_stable (c : ClassFile) (ops : List Op) (i : Nat) (e : Entry) (h : c.pool[i]? = some e) :
    (ops.foldl Op.apply c).pool[i]? = some e := by
  obtain ⟨l, hl⟩ := run_prefix ops c
  rw [hl, List.getElem?_append_left (List.getElem?_eq_some_iff.mp h).1, h]

private theorem apply_methods (c : ClassFile) (op : Op) (i : Nat) (m : Member)
    (h : c.methods[i]? = some m) :
    ∃ m', (op.apply c).methods[i]? = some m' ∧ m'.name = m.name ∧ m'.descr = m.descr := by
  cases op with
  | push e => exact ⟨m, h, rfl, rfl⟩
  | method n d =>
    refine ⟨m, ?_, rfl, rfl⟩
    have := (List.getElem?_eq_some_iff.mp h).1
    simp only [Op.apply, addMethod]
    rw [List.getElem?_append_left this, h]
  | native =>
    refine ⟨{ m with flags := 0x101 }, ?_, rfl, rfl⟩
    simp [Op.apply, makeNative, h]
  | interface =>
    refine ⟨{ m with flags := 0x401 }, ?_, rfl, rfl⟩
    simp [Op.apply, makeInterface, h]

private theorem run_methods (ops : List Op) (c : ClassFile) (i : Nat) (m : Member)
    (h : c.methods[i]? = some m) :
    ∃ m', (ops.foldl Op.apply c).methods[i]? = some m' ∧ m'.name = m.name ∧ m'.descr = m.descr := by
  induction ops generalizing c m with
  | nil => exact ⟨m, h, rfl, rfl⟩
  | cons op ops ih =>
    obtain ⟨m1, h1, h2, h3⟩ := apply_methods c op i m h
    obtain ⟨m2, h4, h5, h6⟩ := ih (op.apply c) m1 h1
    exact ⟨m2, h4, h5.trans h2, h6.trans h3⟩

/-- A method added to a class whose pool has room for 65536 entries: whatever is done before and
afterwards, the method's name and descriptor indices lead to its name and descriptor. -/
theorem C40_method (before after : List Op) (name descr : Bytes)
    (hroom : (before.foldl Op.apply .empty).pool.length + 2 ≤ 65536) :
    ∃ (m : Member),
      ((before ++ .method name descr :: after).foldl Op.apply .empty).methods[
        (before.foldl Op.apply .empty).methods.length]? = some m ∧
      ((before ++ .method name descr :: after).foldl Op.apply .empty).pool[m.name]?
        = some ⟨1, .utf8 name⟩ ∧
      ((before ++ .method name descr :: after).foldl Op.apply .empty).pool[m.descr]?
        = some ⟨1, .utf8 descr⟩ := by
  rw [List.foldl_append, List.foldl_cons]
  generalize List.foldl Op.apply .empty before = c at hroom ⊢
  have hm : ((Op.method name descr).apply c).methods[c.methods.length]?
      = some ⟨0, toU2 c.pool.length, toU2 (c.pool.length + 1), []⟩ := by
    simp [Op.apply, addMethod]
  obtain ⟨m, h1, h2, h3⟩ := run_methods after _ _ _ hm
  refine ⟨m, h1, ?_, ?_⟩
  · rw [h2]
    apply C40_stable
    have : toU2 c.pool.length = c.pool.length := Nat.mod_eq_of_lt (by omega)
    simp [this, Op.apply, addMethod]
  · rw [h3]
    apply C40_stable
    have : toU2 (c.pool.length + 1) = c.pool.length + 1 := Nat.mod_eq_of_lt (by omega)
    simp [this, Op.apply, addMethod]

example : (([Op.push .null, .method [1] [2], .native, .push ⟨7, .u2 2⟩].foldl Op.apply .empty).methods)
    = [⟨0x101, 2, 3, []⟩] := by decide

/-- The flags: after makeNative every method added before is public and native, after makeInterface
public and abstract; nothing else of them changes. -/
theorem C40_flags (c : ClassFile) :
    (makeNative c).methods.map (fun m => (m.name, m.descr, m.attrs))
      = c.methods.map (fun m => (m.name, m.descr, m.attrs)) ∧
    (∀ m ∈ (makeNative c).methods, m.flags = 0x100 + 1) ∧
    (makeInterface c).methods.map (fun m => (m.name, m.descr, m.attrs))
      = c.methods.map (fun m => (m.name, m.descr, m.attrs)) ∧
    (∀ m ∈ (makeInterface c).methods, m.flags = 0x400 + 1) ∧
    (makeNative c).pool = c.pool ∧ (makeInterface c).pool = c.pool := by
  refine ⟨?_, ?_, ?_, ?_, rfl, rfl⟩
  · simp [makeNative, Function.comp_def]
  · intro m hm
    obtain ⟨x, -, rfl⟩ := List.mem_map.mp hm
    rfl
  · simp [makeInterface, Function.comp_def]
  · intro m hm
    obtain ⟨x, -, rfl⟩ := List.mem_map.mp hm
    rfl

/-! ### Class files read back -/

private theorem putLE_length (n v : Nat) : (putLE n v).length = n := by
  induction n generalizing v with
  | zero => rfl
  | succ n ih => simp [putLE, ih]

private theorem getLE_putLE (n v : Nat) (s : Bytes) (h : v < 256 ^ n) :
    getLE n (putLE n v ++ s) = .ok (v, s) := by
  induction n generalizing v with
  | zero =>
    have : v = 0 := by simpa using h
    subst this; rfl
  | succ n ih =>
    have hlt : v / 256 < 256 ^ n := by
      rw [Nat.pow_succ] at h
      exact Nat.div_lt_of_lt_mul (by rw [Nat.mul_comm]; exact h)
    simp only [putLE, getLE, List.cons_append, getByte, R.bind, ih _ hlt]
    rw [UInt8.toNat_ofNat']
    congr 2
    have : (2 : Nat) ^ 8 = 256 := rfl
    omega

private theorem rtSeq {α : Type} (put : α → R Bytes) (get : Get α) (l : List α)
    (hl : l.length < 32768) (hpos : ∀ a ∈ l, ∀ x, put a = .ok x → 1 ≤ x.length)
    (h : ∀ a ∈ l, Rt put get a) : Rt (putSeq put) (getSeq get) l := by
  obtain ⟨b, hb, hb'⟩ := rtAll put get l h
  have hn : ((ofU2 (toU2 l.length)) % 2 ^ 64).toNat = l.length := by
    rw [ofU2_small _ hl]
    have : (Int.ofNat l.length : Int) % 2 ^ 64 = l.length := by
      rw [Int.emod_eq_of_lt] <;> simp <;> omega
    rw [this]; rfl
  refine ⟨putLE 8 l.length ++ b, ?_, fun s => ?_⟩
  · unfold putSeq
    rw [hb, hn]; rfl
  · unfold getSeq
    rw [List.append_assoc, getLE_putLE 8 _ _ (by simp; omega)]
    have := putAll_length put l b hpos hb
    simp only [R.bind, List.length_append]
    rw [if_pos (by omega), hb']

def AttrOk (a : Attr) : Prop := a.name < 2 ^ 16 ∧ a.info.length < 2 ^ 32

def MemberOk (m : Member) : Prop :=
  m.flags < 2 ^ 16 ∧ m.name < 2 ^ 16 ∧ m.descr < 2 ^ 16 ∧ m.attrs.length < 32768 ∧
    ∀ a ∈ m.attrs, AttrOk a

/-- Values in range, all collections shorter than 32768. -/
def ClassOk (c : ClassFile) : Prop :=
  (c.magic < 2 ^ 32 ∧ c.minor < 2 ^ 16 ∧ c.major < 2 ^ 16 ∧ c.flags < 2 ^ 16 ∧ c.this < 2 ^ 16 ∧
    c.super < 2 ^ 16) ∧ PoolOk c.pool ∧
  (c.interfaces.length < 32768 ∧ ∀ i ∈ c.interfaces, i < 2 ^ 16) ∧
  (c.fields.length < 32768 ∧ ∀ m ∈ c.fields, MemberOk m) ∧
  (c.methods.length < 32768 ∧ ∀ m ∈ c.methods, MemberOk m) ∧
  (c.attrs.length < 32768 ∧ ∀ a ∈ c.attrs, AttrOk a)

private theorem rtAttr (a : Attr) (h : AttrOk a) : Rt putAttr getAttr a := by
  refine ⟨_, rfl, fun s => ?_⟩
  have hm : a.info.length % 2 ^ 32 = a.info.length := Nat.mod_eq_of_lt h.2
  rw [hm]
  unfold getAttr
  rw [List.append_assoc, List.append_assoc, rt2 _ _ h.1]
  simp only [R.bind]
  rw [rt4 _ _ h.2]
  simp [getRaw]

private theorem attr_pos (a : Attr) (x : Bytes) (h : putAttr a = .ok x) : 1 ≤ x.length := by
  simp only [putAttr, R.ok.injEq] at h
  subst h
  simp [putU2, putBE_length]; omega

private theorem rtAttrs (l : List Attr) (hl : l.length < 32768) (h : ∀ a ∈ l, AttrOk a) :
    Rt (putSeq putAttr) (getSeq getAttr) l :=
  rtSeq _ _ _ hl (fun a _ x hx => attr_pos a x hx) (fun a ha => rtAttr a (h a ha))

private theorem rtMember (m : Member) (h : MemberOk m) : Rt putMember getMember m := by
  obtain ⟨h1, h2, h3, h4, h5⟩ := h
  obtain ⟨b, hb, hb'⟩ := rtAttrs m.attrs h4 h5
  refine ⟨putU2 m.flags ++ putU2 m.name ++ putU2 m.descr ++ b, by simp [putMember, hb, R.bind], fun s => ?_⟩
  unfold getMember
  simp only [List.append_assoc]
  rw [rt2 _ _ h1]
  simp only [R.bind]
  rw [rt2 _ _ h2]
  simp only
  rw [rt2 _ _ h3]
  simp only [hb']

private theorem member_pos (m : Member) (x : Bytes) (h : putMember m = .ok x) : 1 ≤ x.length := by
  simp only [putMember] at h
  generalize putSeq putAttr m.attrs = b at h
  cases b with
  | throw => simp [R.bind] at h
  | ub => simp [R.bind] at h
  | ok b =>
    simp only [R.bind, R.ok.injEq] at h
    subst h
    simp [putU2, putBE_length]; omega

private theorem rtMembers (l : List Member) (hl : l.length < 32768) (h : ∀ a ∈ l, MemberOk a) :
    Rt (putSeq putMember) (getSeq getMember) l :=
  rtSeq _ _ _ hl (fun a _ x hx => member_pos a x hx) (fun a ha => rtMember a (h a ha))

/-- A class file with all collections and strings shorter than 32768 reads back. -/
theorem C40_class_partial (c : ClassFile) (h : ClassOk c) (rest : Bytes) :
    ∃ b, putClass c = .ok b ∧ getClass (b ++ rest) = .ok (c, rest) := by
  obtain ⟨⟨h1, h2, h3, h4, h5, h6⟩, hp, hi, hf, hm, ha⟩ := h
  obtain ⟨p, hp1, hp2⟩ := rtPool _ hp
  obtain ⟨i, hi1, hi2⟩ := rtSeq (fun v => .ok (putU2 v)) getU2 c.interfaces hi.1
    (fun a _ x hx => by simp only [R.ok.injEq] at hx; subst hx; simp [putU2, putBE_length])
    (fun a ha => ⟨_, rfl, fun s => rt2 a s (hi.2 a ha)⟩)
  obtain ⟨f, hf1, hf2⟩ := rtMembers _ hf.1 hf.2
  obtain ⟨m, hm1, hm2⟩ := rtMembers _ hm.1 hm.2
  obtain ⟨a, ha1, ha2⟩ := rtAttrs _ ha.1 ha.2
  refine ⟨_, by simp only [putClass, hp1, hi1, hf1, hm1, ha1, R.bind]; rfl, ?_⟩
  unfold getClass
  simp only [List.append_assoc]
  rw [rt4 _ _ h1]; simp only [R.bind]
  rw [rt2 _ _ h2]; simp only
  rw [rt2 _ _ h3]; simp only
  rw [hp2]; simp only
  rw [rt2 _ _ h4]; simp only
  rw [rt2 _ _ h5]; simp only
  rw [rt2 _ _ h6]; simp only
  rw [hi2]; simp only
  rw [hf2]; simp only
  rw [hm2]; simp only
  rw [ha2]

/-- A class with a name, an interface and a native method. -/
private def sample : ClassFile :=
  { (makeNative (addMethod
      { ClassFile.empty with pool := [.null, ⟨7, .u2 2⟩, ⟨1, .utf8 [70]⟩] } [102] [40, 41, 86])) with
    this := 1, interfaces := [1], attrs := [⟨2, [1, 2]⟩] }

example : ClassOk sample ∧ (putClass sample).bind getClass = .ok (sample, []) := by
  refine ⟨⟨by decide, ⟨by decide, _, rfl, ?_⟩, by decide, ⟨by decide, by simp [sample, addMethod, makeNative, ClassFile.empty]⟩, ?_, ?_⟩, rfl⟩
  · intro e he
    simp [sample, addMethod, makeNative, ClassFile.empty] at he
    rcases he with rfl | rfl | rfl | rfl <;> simp [EntryOk, Typed, InfoOk]
  · refine ⟨by decide, ?_⟩
    intro m hm
    simp [sample, addMethod, makeNative, ClassFile.empty] at hm
    subst hm
    simp [MemberOk, toU2]
  · refine ⟨by decide, ?_⟩
    intro m hm
    simp [sample] at hm
    subst hm
    simp [AttrOk]

/-! ## C52: the layout of a class file -/

/-- A table in a class file (JVM specification, chapter 4): a two byte count, then the items. -/
def jvmTable {α : Type} (item : α → Bytes) (l : List α) : Bytes :=
  putU2 l.length ++ (l.map item).flatten

def jvmAttr (a : Attr) : Bytes := putU2 a.name ++ putU4 a.info.length ++ a.info

def jvmMember (m : Member) : Bytes :=
  putU2 m.flags ++ putU2 m.name ++ putU2 m.descr ++ jvmTable jvmAttr m.attrs

def jvmInfo : Info → Bytes
  | .null => []
  | .u2 v => putU2 v
  | .ref a b => putU2 a ++ putU2 b
  | .u4 v => putU4 v
  | .u8 v => putU8 v
  | .nameType a b => putU2 a ++ putU2 b
  | .utf8 s => putU2 s.length ++ s

def jvmEntry (e : Entry) : Bytes := e.tag :: jvmInfo e.info

/-- Up to the interfaces, for a pool without 8 byte constants. -/
def jvmHead (c : ClassFile) : Bytes :=
  putU4 c.magic ++ putU2 c.minor ++ putU2 c.major ++
  (putU2 c.pool.length ++ ((c.pool.drop 1).map jvmEntry).flatten) ++
  putU2 c.flags ++ putU2 c.this ++ putU2 c.super

def jvmTail (c : ClassFile) : Bytes :=
  jvmTable putU2 c.interfaces ++ jvmTable jvmMember c.fields ++ jvmTable jvmMember c.methods ++
  jvmTable jvmAttr c.attrs

private theorem putEntry_eq (e : Entry) (h : EntryOk e) : putEntry e = .ok (jvmEntry e) := by
  obtain ⟨t, i⟩ := e
  obtain ⟨ht, hi⟩ := h
  cases i with
  | null => exact ht.elim
  | u2 v =>
    have hk : kind t = .index := by rcases ht with h | h <;> (simp only at h; rw [h]; decide)
    simp [putEntry, hk, jvmEntry, jvmInfo]
  | ref a b =>
    have hk : kind t = .ref := by rcases ht with h | h | h <;> (simp only at h; rw [h]; decide)
    simp [putEntry, hk, jvmEntry, jvmInfo]
  | u4 v =>
    have hk : kind t = .int := by rcases ht with h | h <;> (simp only at h; rw [h]; decide)
    simp [putEntry, hk, jvmEntry, jvmInfo]
  | u8 v =>
    have hk : kind t = .long := by rcases ht with h | h <;> (simp only at h; rw [h]; decide)
    simp [putEntry, hk, jvmEntry, jvmInfo]
  | nameType a b =>
    have hk : kind t = .nameType := by simp only [Typed] at ht; rw [ht]; decide
    simp [putEntry, hk, jvmEntry, jvmInfo]
  | utf8 v =>
    have hk : kind t = .utf8 := by simp only [Typed] at ht; rw [ht]; decide
    simp [putEntry, hk, jvmEntry, jvmInfo, (rtStr v [] hi).1, R.bind]

private theorem putAll_map {α : Type} (put : α → R Bytes) (f : α → Bytes) (l : List α)
    (h : ∀ a ∈ l, put a = .ok (f a)) : putAll put l = .ok (l.map f).flatten := by
  induction l with
  | nil => rfl
  | cons a l ih =>
    simp [putAll, h a (by simp), ih (fun b hb => h b (by simp [hb])), R.bind]

private theorem putPool_eq (p : List Entry) (h : PoolOk p) :
    putPool p = .ok (putU2 p.length ++ ((p.drop 1).map jvmEntry).flatten) := by
  obtain ⟨hl, q, rfl, hq⟩ := h
  have ho := ofU2_small _ hl
  have hm : toU2 (Entry.null :: q).length = (Entry.null :: q).length := Nat.mod_eq_of_lt (by omega)
  have hn : (ofU2 (toU2 (Entry.null :: q).length)).toNat = (Entry.null :: q).length := by rw [ho]; rfl
  unfold putPool
  rw [hn, List.take_length, List.drop_succ_cons, List.drop_zero,
    putAll_map putEntry jvmEntry q (fun e he => putEntry_eq e (hq e he)), hm]
  rfl

private def exc {α : Type} (put : α → R Bytes) (f : α → Bytes) (a : α) : Prop :=
  ∃ b, put a = .ok b ∧ (f a).length ≤ b.length

private theorem exc_all {α : Type} (put : α → R Bytes) (f : α → Bytes) (l : List α)
    (h : ∀ a ∈ l, exc put f a) : ∃ b, putAll put l = .ok b ∧ (l.map f).flatten.length ≤ b.length := by
  induction l with
  | nil => exact ⟨[], rfl, by simp⟩
  | cons a l ih =>
    obtain ⟨x, hx, hx'⟩ := h a (by simp)
    obtain ⟨y, hy, hy'⟩ := ih (fun b hb => h b (by simp [hb]))
    refine ⟨x ++ y, by simp [putAll, hx, hy, R.bind], ?_⟩
    simp only [List.map_cons, List.flatten_cons, List.length_append]
    omega

private theorem exc_seq {α : Type} (put : α → R Bytes) (f : α → Bytes) (l : List α)
    (h : ∀ a ∈ l, exc put f a) :
    ∃ b, putSeq put l = .ok b ∧ (jvmTable f l).length + 6 ≤ b.length := by
  obtain ⟨x, hx, hx'⟩ := exc_all put f l h
  refine ⟨_, by simp only [putSeq, hx, R.bind]; rfl, ?_⟩
  simp only [jvmTable, List.length_append, putU2, putBE_length, putLE_length]
  omega

private theorem exc_attr (a : Attr) (h : AttrOk a) : exc putAttr jvmAttr a :=
  ⟨_, rfl, by rw [Nat.mod_eq_of_lt h.2]; exact Nat.le_refl _⟩

private theorem exc_member (m : Member) (h : MemberOk m) : exc putMember jvmMember m := by
  obtain ⟨b, hb, hb'⟩ := exc_seq putAttr jvmAttr m.attrs (fun a ha => exc_attr a (h.2.2.2.2 a ha))
  refine ⟨_, by simp only [putMember, hb, R.bind]; rfl, ?_⟩
  simp only [jvmMember, List.length_append]
  omega

/-- Up to the super class the bytes written are those required. -/
theorem C52_head_partial (c : ClassFile) (h : ClassOk c) :
    ∃ t, putClass c = .ok (jvmHead c ++ t) := by
  obtain ⟨-, hp, hi, hf, hm, ha⟩ := h
  obtain ⟨i, hi1, -⟩ := exc_seq (fun v => .ok (putU2 v)) putU2 c.interfaces (fun a _ => ⟨_, rfl, Nat.le_refl _⟩)
  obtain ⟨f, hf1, -⟩ := exc_seq putMember jvmMember c.fields (fun a ha => exc_member a (hf.2 a ha))
  obtain ⟨m, hm1, -⟩ := exc_seq putMember jvmMember c.methods (fun a ha => exc_member a (hm.2 a ha))
  obtain ⟨a, ha1, -⟩ := exc_seq putAttr jvmAttr c.attrs (fun x hx => exc_attr x (ha.2 x hx))
  refine ⟨i ++ f ++ m ++ a, ?_⟩
  simp only [putClass, putPool_eq _ hp, hi1, hf1, hm1, ha1, R.bind, jvmHead, List.append_assoc]

/-- No class file written is laid out as required: the counts of interfaces, fields, methods and
attributes take 8 bytes each instead of 2. -/
theorem C52_layout_fails (c : ClassFile) (h : ClassOk c) :
    ∃ b, putClass c = .ok b ∧ (jvmHead c ++ jvmTail c).length + 24 ≤ b.length ∧
      b ≠ jvmHead c ++ jvmTail c := by
  obtain ⟨-, hp, hi, hf, hm, ha⟩ := h
  obtain ⟨i, hi1, hi2⟩ := exc_seq (fun v => .ok (putU2 v)) putU2 c.interfaces (fun a _ => ⟨_, rfl, Nat.le_refl _⟩)
  obtain ⟨f, hf1, hf2⟩ := exc_seq putMember jvmMember c.fields (fun a ha => exc_member a (hf.2 a ha))
  obtain ⟨m, hm1, hm2⟩ := exc_seq putMember jvmMember c.methods (fun a ha => exc_member a (hm.2 a ha))
  obtain ⟨a, ha1, ha2⟩ := exc_seq putAttr jvmAttr c.attrs (fun x hx => exc_attr x (ha.2 x hx))
  have hlen : (jvmHead c ++ jvmTail c).length + 24 ≤ (jvmHead c ++ (i ++ f ++ m ++ a)).length := by
    simp only [jvmTail, List.length_append] at *
    omega
  refine ⟨jvmHead c ++ (i ++ f ++ m ++ a), ?_, hlen, ?_⟩
  · simp only [putClass, putPool_eq _ hp, hi1, hf1, hm1, ha1, R.bind, jvmHead, List.append_assoc]
  · intro he
    rw [he] at hlen
    omega

/-- A class file laid out as required cannot be read: even the smallest one (no members). -/
theorem C52_read_fails :
    getClass (jvmHead ClassFile.empty ++ jvmTail ClassFile.empty) = .throw := by decide

/-- 8 byte constants take up two places in the pool of a class file, the second of which is not in
the file: a pool of one 8 byte constant has the count 3. Read, it swallows what follows: here the
entry is right, but the access flags and the class index behind it have become another entry. -/
theorem C52_long_constant_fails :
    getPool (putU2 3 ++ (5 :: putU8 77) ++ putU2 0x0301 ++ putU2 9 ++ putU2 4)
      = .ok ([.null, ⟨5, .u8 77⟩, ⟨3, .u4 0x01000900⟩], [4]) := by rfl

/-! ## C53: signatures -/

/-- What a C++ type is called in the Java native interface. -/
def Ty.jni : Ty → J
  | .void => .void
  | .bool => .jboolean
  | .char => .jchar
  | .short => .jshort
  | .int => .jint
  | .long => .jlong
  | .float => .jfloat
  | .double => .jdouble
  | .string => .jstring

private theorem arglist_ty (t : Ty) (n : Nat) (r : List Char) :
    arglist (n + 1) (t.sig ++ r) = (arglist n r).bind fun l => .ok (t.jni :: l) := by
  cases t <;> rfl

private theorem arglist_tys (ts : List Ty) (n : Nat) (r : List Char) (l : List J)
    (h : arglist n r = .ok l) :
    arglist (ts.length + n) ((ts.map Ty.sig).flatten ++ r) = .ok (ts.map Ty.jni ++ l) := by
  induction ts with
  | nil => simpa using h
  | cons t ts ih =>
    have : (t :: ts).length + n = (ts.length + n) + 1 := by simp; omega
    rw [this]
    simp only [List.map_cons, List.flatten_cons, List.append_assoc]
    rw [arglist_ty, ih]
    rfl

private theorem arglist_mono (n : Nat) (r : List Char) (l : List J) (h : arglist n r = .ok l) :
    arglist (n + 1) r = .ok l := by
  induction n generalizing r l with
  | zero =>
    cases r with
    | nil => simpa [arglist] using h
    | cons c r => simp [arglist] at h
  | succ n ih =>
    have key : ∀ (r : List Char) (f : List J → R (List J)), (arglist n r).bind f = .ok l →
        (arglist (n + 1) r).bind f = .ok l := by
      intro r f h
      generalize hg : arglist n r = g at h
      cases g with
      | ok a => rw [ih r a hg]; exact h
      | throw => simp [R.bind] at h
      | ub => simp [R.bind] at h
    have key2 : ∀ (r : List Char) (f : List J → R (List J)),
        ((skipClass r).bind fun r => (arglist n r).bind f) = .ok l →
        ((skipClass r).bind fun r => (arglist (n + 1) r).bind f) = .ok l := by
      intro r f h
      generalize skipClass r = g at h
      cases g with
      | ok a => exact key a f h
      | throw => simp [R.bind] at h
      | ub => simp [R.bind] at h
    cases r with
    | nil => simpa [arglist] using h
    | cons c r =>
      rw [arglist.eq_def] at h ⊢
      simp only at h ⊢
      split at h
      all_goals first
        | exact key _ _ h
        | exact key2 _ _ h
        | exact ih _ _ h
        | skip
      · split at h
        · exact h
        · split at h
          · rename_i hd; simp only [hd, if_true]; exact key _ _ h
          · rename_i hd
            simp only [hd, if_false]
            split at h
            · rename_i hd2; simp only [hd2, if_true]; exact key2 _ _ h
            · rename_i hd2; simp only [hd2, if_false]; exact ih _ _ h
      · exact h

private theorem arglist_le (n m : Nat) (r : List Char) (l : List J) (h : arglist n r = .ok l)
    (hm : n ≤ m) : arglist m r = .ok l := by
  induction hm with
  | refl => exact h
  | step _ ih => exact arglist_mono _ _ _ ih

/-- Reading the signature generated for a function gives the types of its arguments, in order, and
last its return type; for any number of arguments. -/
theorem C53_signature (args : List Ty) (ret : Ty) :
    arglist (signature args ret).length (signature args ret)
      = .ok (args.map Ty.jni ++ [ret.jni]) := by
  have hpos : ∀ t : Ty, 1 ≤ t.sig.length := by intro t; cases t <;> decide
  have hlen : ∀ l : List Ty, l.length ≤ (l.map Ty.sig).flatten.length := by
    intro l
    induction l with
    | nil => simp
    | cons t l ih =>
      have := hpos t
      simp only [List.map_cons, List.flatten_cons, List.length_append, List.length_cons]
      omega
  have h1 : arglist 1 (ret.sig) = .ok [ret.jni] := by
    have := arglist_ty ret 0 []
    rw [List.append_nil] at this
    rw [this]; rfl
  have h2 : arglist 2 (')' :: ret.sig) = .ok [ret.jni] := h1
  have h3 := arglist_tys args 2 _ _ h2
  have h4 : arglist (args.length + 2 + 1) (signature args ret) = .ok (args.map Ty.jni ++ [ret.jni]) := by
    simpa [signature, arglist] using h3
  refine arglist_le _ _ _ _ h4 ?_
  have := hlen args
  have := hpos ret
  simp only [signature, List.length_cons, List.length_append]
  omega

example : signature [.int, .string] .void = "(ILjava/lang/String;)V".toList ∧
    arglist 22 "(ILjava/lang/String;)V".toList = .ok [.jint, .jstring, .void] := by decide

/-- Arrays of arrays are taken for what they are arrays of. -/
theorem C53_nested_array_fails : arglist 6 "([[I)V".toList = .ok [.jint, .void] := by decide

/-! ### Signatures of class files written by others -/

/-- A type in a Java signature: a basic type, a class, or an array of one of these. -/
inductive JTy
  | boolean | byte | char | short | int | long | float | double | void
  | cls (name : List Char)
  | array (of : Char)
  | arrayCls (name : List Char)

/-- How the Java virtual machine specification writes it. -/
def JTy.text : JTy → List Char
  | .boolean => ['Z'] | .byte => ['B'] | .char => ['C'] | .short => ['S'] | .int => ['I'] | .long => ['J']
  | .float => ['F'] | .double => ['D'] | .void => ['V']
  | .cls n => 'L' :: (n ++ [';'])
  | .array c => ['[', c]
  | .arrayCls n => '[' :: 'L' :: (n ++ [';'])

/-- What it is in the native interface; strings have a type of their own. -/
def JTy.native : JTy → J
  | .boolean => .jboolean | .byte => .jbyte | .char => .jchar | .short => .jshort | .int => .jint | .long => .jlong
  | .float => .jfloat | .double => .jdouble | .void => .void
  | .cls n => if n = "java/lang/String".toList then .jstring else .jobject
  | .array c => .array c
  | .arrayCls _ => .array 'L'

/-- Class names contain no semicolon; arrays are of basic types. -/
def JTy.Ok : JTy → Prop
  | .cls n | .arrayCls n => ';' ∉ n
  | .array c => c ∈ ['Z', 'B', 'C', 'S', 'I', 'J', 'F', 'D']
  | _ => True

private theorem skipClass_name (n r : List Char) (h : ';' ∉ n) : skipClass (n ++ ';' :: r) = .ok r := by
  induction n with
  | nil => rfl
  | cons c n ih =>
    have h1 : (c == ';') = false := by
      simp only [beq_eq_false_iff_ne]; rintro rfl; simp at h
    have h2 := ih fun e => h (by simp [e])
    simp [skipClass, h1, h2]

private theorem string_prefix : ∀ (w n r : List Char), ';' ∉ n → ';' ∉ w →
    ((n ++ ';' :: r).take (w.length + 1) = w ++ [';'] ↔ n = w)
  | [], [], r, _, _ => by simp
  | [], c :: n, r, h, _ => by simp at h ⊢; intro e; exact absurd e.symm h.1
  | d :: w, [], r, _, h => by simp at h ⊢; intro e; exact absurd e h.1
  | d :: w, c :: n, r, h, h' => by
    have := string_prefix w n r (by simp at h; exact h.2) (by simp at h'; exact h'.2)
    simp only [List.cons_append, List.length_cons, List.take_succ_cons, List.cons.injEq, this]

private theorem arglist_jty (t : JTy) (ht : t.Ok) (n : Nat) (r : List Char) :
    arglist (n + 1) (t.text ++ r) = (arglist n r).bind fun l => .ok (t.native :: l) := by
  cases t with
  | cls c =>
    have h1 := skipClass_name c r ht
    have e : JTy.text (.cls c) ++ r = 'L' :: (c ++ ';' :: r) := by simp [JTy.text]
    have h2 := string_prefix "java/lang/String".toList c r ht (by decide)
    have h3 : (('L' :: (c ++ ';' :: r)).take 18 == "Ljava/lang/String;".toList) = decide (c = "java/lang/String".toList) := by
      have e1 : "Ljava/lang/String;".toList = 'L' :: ("java/lang/String".toList ++ [';']) := by decide
      have e2 : "java/lang/String".toList.length + 1 = 17 := by decide
      rw [e1, List.take_succ_cons]
      rw [e2] at h2
      rw [Bool.eq_iff_iff, beq_iff_eq, decide_eq_true_eq, List.cons.injEq, ← h2]
      simp
    rw [e, arglist]
    simp only [h1, h3, R.bind, JTy.native, decide_eq_true_eq]
  | array c =>
    have h0 : c ∈ ['Z', 'B', 'C', 'S', 'I', 'J', 'F', 'D'] := ht
    show arglist (n + 1) ('[' :: c :: r) = _
    rw [arglist]
    simp only [h0, if_true]
    rfl
  | arrayCls c =>
    have h1 := skipClass_name c r ht
    have e : JTy.text (.arrayCls c) ++ r = '[' :: 'L' :: (c ++ ';' :: r) := by simp [JTy.text]
    rw [e, arglist]
    have h0 : ¬ 'L' ∈ ['Z', 'B', 'C', 'S', 'I', 'J', 'F', 'D'] := by decide
    simp only [h0, if_false, h1, R.bind, JTy.native]
    rfl
  | _ => rfl

/-- Signatures of class files written by others, with bytes, classes and arrays, are read as well: every argument
type in order, last the return type. -/
theorem C53_general (args : List JTy) (ret : JTy) (ha : ∀ t ∈ args, t.Ok) (hr : ret.Ok) :
    let s := '(' :: ((args.map JTy.text).flatten ++ ')' :: ret.text)
    arglist s.length s = .ok (args.map JTy.native ++ [ret.native]) := by
  have hpos : ∀ t : JTy, 1 ≤ t.text.length := by intro t; cases t <;> simp [JTy.text]
  have hlen : ∀ l : List JTy, l.length ≤ (l.map JTy.text).flatten.length := by
    intro l
    induction l with
    | nil => simp
    | cons t l ih =>
      have := hpos t
      simp only [List.map_cons, List.flatten_cons, List.length_append, List.length_cons]
      omega
  have h1 : arglist 1 (ret.text) = .ok [ret.native] := by
    have := arglist_jty ret hr 0 []
    rw [List.append_nil] at this
    rw [this]; rfl
  have h2 : arglist 2 (')' :: ret.text) = .ok [ret.native] := h1
  have h3 : ∀ (ts : List JTy), (∀ t ∈ ts, t.Ok) →
      arglist (ts.length + 2) ((ts.map JTy.text).flatten ++ ')' :: ret.text) = .ok (ts.map JTy.native ++ [ret.native]) := by
    intro ts
    induction ts with
    | nil => intro _; simpa using h2
    | cons t ts ih =>
      intro h
      have e : (t :: ts).length + 2 = (ts.length + 2) + 1 := by simp
      rw [e]
      simp only [List.map_cons, List.flatten_cons, List.append_assoc]
      rw [arglist_jty t (h t (by simp)), ih fun t ht => h t (by simp [ht])]
      rfl
  have h4 : arglist (args.length + 2 + 1) ('(' :: ((args.map JTy.text).flatten ++ ')' :: ret.text)) =
      .ok (args.map JTy.native ++ [ret.native]) := by
    have := h3 args ha
    simpa [arglist] using this
  refine arglist_le _ _ _ _ h4 ?_
  have := hlen args
  have := hpos ret
  simp only [List.length_cons, List.length_append]
  omega

example : arglist 29 "([BLjava/util/List;[LC;)[LD;;".toList = .throw ∧
    arglist 28 "([BLjava/util/List;[LC;)[LD;".toList = .ok [.array 'B', .jobject, .array 'L', .array 'L'] := by decide

/-! ## C40: strings too long for the pool -/

/-- A pool with a string of 32768 bytes or more (and below 65536) cannot be written: undefined behaviour. -/
theorem C40_long_string_fails (s : Bytes) (h : 32768 ≤ s.length) (h2 : s.length < 65536) :
    putPool [.null, ⟨1, .utf8 s⟩] = .ub := by
  have := (C39_long_strings_fail s [] h h2).1
  have e : (ofU2 (toU2 [Entry.null, ⟨1, .utf8 s⟩].length)).toNat = 2 := rfl
  unfold putPool
  rw [e]
  simp [putAll, putEntry, kind, this, R.bind]

end Verif.Java
