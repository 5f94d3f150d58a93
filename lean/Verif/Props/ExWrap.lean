import Verif.ExWrap
/-
C121: a variable declared with the wrapper that excludes it from serialisation works as before.
-/
namespace Verif.ExWrap

/-! ## Integers -/

private theorem conv_of_fits (k : Kind) (n : Int) (h : k.fits n = true) : k.conv n = n := by
  obtain ⟨w, s⟩ := k
  cases w <;> cases s <;>
    simp [Kind.fits, Kind.lo, Kind.hi, Kind.conv, Width.bits] at h ⊢ <;> omega

private theorem fits_conv (k : Kind) (n : Int) : k.fits (k.conv n) = true := by
  obtain ⟨w, s⟩ := k
  cases w <;> cases s <;>
    simp [Kind.fits, Kind.lo, Kind.hi, Kind.conv, Width.bits] <;> omega

private theorem fits_of_conv (k : Kind) (n : Int) (h : k.conv n = n) : k.fits n = true := by
  rw [← h]; exact fits_conv k n

private theorem arith_fits (k : Kind) (op : Op) (a b r : Int) (h : arith k op a b = some r) :
    k.fits r = true := by
  unfold arith at h
  revert h
  simp only
  split
  · intro h; cases h
  · rename_i q _
    split
    · split
      · rename_i hf; intro h; cases h; exact hf
      · intro h; cases h
    · intro h; cases h; exact fits_conv k q

/-- The operations on which the wrapper and the plain type agree: those whose operand fits the
type of the variable and does not widen the arithmetic, and binary operators of types not
narrower than `int`. -/
def C121.Mild (k : Kind) : Act → Prop
  | .set _ => True
  | .comp _ (.int kb v) => k.fits v = true ∧ common k kb = promote k
  | .comp _ (.real _) => False
  | .show _ _ => 32 ≤ k.width.bits
  | .eq _ => True
  | .ne (.int kb v) => k.fits v = true ∧ common k kb = promote k
  | .ne (.real _) => False
  | .value => True

private theorem promote_fits (k : Kind) (n : Int) (h : k.fits n = true) :
    (promote k).fits n = true := by
  obtain ⟨w, s⟩ := k
  cases w <;> cases s <;>
    simp [Kind.fits, Kind.lo, Kind.hi, promote, int32, Width.bits] at h ⊢ <;> omega

private theorem step_fits (k : Kind) (x : Int) (hx : k.fits x = true) (a : Act) (y : Int)
    (out : List Int) (h : stepExcl k x a = some (y, out)) : k.fits y = true := by
  have to_fits : ∀ (e : Operand) (v : Int), e.to k = some v → k.fits v = true := by
    intro e v h
    cases e with
    | int kb w => simp only [Operand.to, Option.some.injEq] at h; rw [← h]; exact fits_conv k w
    | real q =>
      simp only [Operand.to] at h
      split at h
      · rename_i hf; cases h; exact hf
      · cases h
  cases a with
  | set e =>
    simp only [stepExcl, Option.map_eq_some_iff, Prod.mk.injEq] at h
    obtain ⟨v, hv, rfl, _⟩ := h
    exact to_fits e v hv
  | comp op e =>
    simp only [stepExcl] at h
    split at h
    · cases h
    · simp only [Option.map_eq_some_iff, Prod.mk.injEq] at h
      obtain ⟨v, _, rfl, _⟩ := h
      exact fits_conv k v
  | «show» op v =>
    simp only [stepExcl, Option.map_eq_some_iff, Prod.mk.injEq] at h
    obtain ⟨_, _, rfl, _⟩ := h
    exact hx
  | eq v => simp only [stepExcl, Option.some.injEq, Prod.mk.injEq] at h; rw [← h.1]; exact hx
  | ne e =>
    simp only [stepExcl, Option.map_eq_some_iff, Prod.mk.injEq] at h
    obtain ⟨_, _, rfl, _⟩ := h
    exact hx
  | value => simp only [stepExcl, Option.some.injEq, Prod.mk.injEq] at h; rw [← h.1]; exact hx

private theorem step_mild (rnd : Rat → Rat) (k : Kind) (x : Int) (hx : k.fits x = true) (a : Act)
    (h : C121.Mild k a) : stepPlain rnd k x a = stepExcl k x a := by
  cases a with
  | set e => rfl
  | comp op e =>
    cases e with
    | int kb v =>
      obtain ⟨hf, hc⟩ := h
      simp only [stepPlain, stepExcl, Operand.to, hc, conv_of_fits k v hf]
    | real q => exact h.elim
  | «show» op v =>
    have hp : promote k = k := by
      have : ¬ k.width.bits < 32 := by simp only [C121.Mild] at h; omega
      simp [promote, this]
    simp only [stepPlain, stepExcl, hp]
    cases hr : arith k op x v with
    | none => rfl
    | some r => simp [conv_of_fits k r (arith_fits k op x v r hr)]
  | eq v => rfl
  | ne e =>
    cases e with
    | int kb v =>
      obtain ⟨hf, hc⟩ := h
      simp only [stepPlain, stepExcl, Operand.to, hc, conv_of_fits k v hf,
        conv_of_fits _ v (promote_fits k v hf), conv_of_fits _ x (promote_fits k x hx), bne,
        Option.map_some]
    | real q => exact h.elim
  | value => rfl

/-- **C121** (part): a program that declares an integer variable with the wrapper writes the same
and leaves the same value as with the plain type, undefined behaviour included, for operands that
fit the type of the variable and do not widen the arithmetic, with binary operators only on types
not narrower than `int`. -/
theorem C121_int_partial (rnd : Rat → Rat) (k : Kind) (x : Int) (hx : k.fits x = true)
    (prog : List Act) (h : ∀ a ∈ prog, C121.Mild k a) :
    run (stepExcl k) x prog = run (stepPlain rnd k) x prog := by
  induction prog generalizing x with
  | nil => rfl
  | cons a as ih =>
    unfold run
    rw [step_mild rnd k x hx a (h a (by simp))]
    split
    · rfl
    · rename_i y out hs
      rw [ih y (step_fits k x hx a y out hs) (fun b hb => h b (by simp [hb]))]

example : ∀ a ∈ [Act.comp .mul (.int ⟨.w16, true⟩ 3), .show .div 5, .ne (.int int32 7), .value],
    C121.Mild int32 a := by simp [C121.Mild]; decide
example : run (stepExcl int32) 14 [.comp .mul (.int ⟨.w16, true⟩ 3), .show .div 5,
    .ne (.int int32 7), .value] = some (42, [8, 1, 42]) := by decide

/-- **C121** (exactly which results of a binary operator differ): those that do not fit the type of
the variable. -/
theorem C121_narrow (rnd : Rat → Rat) (k : Kind) (op : Op) (x v : Int) :
    stepExcl k x (.show op v) = stepPlain rnd k x (.show op v) ↔
      ∀ r, arith (promote k) op x v = some r → k.lo ≤ r ∧ r ≤ k.hi := by
  simp only [stepPlain, stepExcl]
  cases hr : arith (promote k) op x v with
  | none => simp
  | some r =>
    simp only [Option.map_some, Option.some.injEq, Prod.mk.injEq, List.cons.injEq, and_true,
      true_and, forall_eq']
    constructor
    · intro h
      have := fits_of_conv k r h
      simpa [Kind.fits] using this
    · intro h
      exact conv_of_fits k r (by simpa [Kind.fits] using h)

/-- **C121 fails**: the sum of two `unsigned char` that is beyond 255 is reduced. -/
theorem C121_fails_narrow (rnd : Rat → Rat) (x y : Int) (hx : x ≤ 255) (hy : y ≤ 255)
    (h : 255 < x + y) :
    stepPlain rnd ⟨.w8, false⟩ x (.show .add y) = some (x, [x + y]) ∧
    stepExcl ⟨.w8, false⟩ x (.show .add y) = some (x, [x + y - 256]) := by
  have e : arith (promote ⟨.w8, false⟩) .add x y = some (x + y) := by
    have : int32.fits (x + y) = true := by
      simp [Kind.fits, Kind.lo, Kind.hi, int32, Width.bits]; omega
    simp only [promote, Width.bits, arith]
    simp [int32]
    simp [int32] at this
    exact this
  constructor
  · simp [stepPlain, e]
  · simp only [stepExcl, e, Option.map_some, Option.some.injEq, Prod.mk.injEq, true_and,
      List.cons.injEq, and_true]
    simp [Kind.conv, Kind.hi, Width.bits]; omega

example : (200 : Int) ≤ 255 ∧ (100 : Int) ≤ 255 ∧ (255 : Int) < 200 + 100 := by decide

/-- **C121 fails**: `x *= 1.5` leaves an `int` as it was. -/
theorem C121_fails_real (rnd : Rat → Rat)
    (exact : ∀ n : Int, -2 ^ 53 ≤ n → n ≤ 2 ^ 53 → rnd n = n)
    (n : Int) (h0 : 0 ≤ n) (h1 : n ≤ 2 ^ 29) :
    stepPlain rnd int32 (2 * n) (.comp .mul (.real (3 / 2))) = some (3 * n, []) ∧
    stepExcl int32 (2 * n) (.comp .mul (.real (3 / 2))) = some (2 * n, []) := by
  have ti : ∀ m : Int, trunc (m : Rat) = m := by intro m; simp [trunc]
  have q : ((2 * n : Int) : Rat) * (3 / 2) = ((3 * n : Int) : Rat) := by
    rw [Rat.intCast_mul, Rat.intCast_mul, Rat.mul_comm ((2 : Int) : Rat), Rat.mul_assoc,
      Rat.mul_comm]
    congr 1
    grind
  have t : trunc (3 / 2) = 1 := by decide +kernel
  constructor
  · have f : int32.fits (3 * n) = true := by
      simp [Kind.fits, Kind.lo, Kind.hi, int32, Width.bits]; omega
    simp only [stepPlain, ratOp]
    rw [exact (2 * n) (by omega) (by omega), q, exact (3 * n) (by omega) (by omega)]
    simp only [Operand.to, ti, f, if_true, Option.map_some]
  · have f : int32.fits 1 = true := by decide
    have f2 : int32.fits (2 * n) = true := by
      simp [Kind.fits, Kind.lo, Kind.hi, int32, Width.bits]; omega
    have p : promote int32 = int32 := by decide
    have s : int32.signed = true := rfl
    simp [stepExcl, Operand.to, t, f, p, arith, conv_of_fits _ _ f2, conv_of_fits _ _ f, f2, s]

example : ∀ n : Int, -2 ^ 53 ≤ n → n ≤ 2 ^ 53 → (id : Rat → Rat) n = n := fun _ _ _ => rfl

/-- **C121 fails**: dividing an `int` by two to the power of 32 is undefined, not nought. -/
theorem C121_fails_divide (rnd : Rat → Rat) (x : Int) (hx : int32.fits x = true) :
    stepPlain rnd int32 x (.comp .div (.int ⟨.w64, true⟩ (2 ^ 32))) = some (0, []) ∧
    stepExcl int32 x (.comp .div (.int ⟨.w64, true⟩ (2 ^ 32))) = none := by
  constructor
  · have c : common int32 ⟨.w64, true⟩ = ⟨.w64, true⟩ := by decide
    have b : Kind.conv ⟨.w64, true⟩ (2 ^ 32) = 2 ^ 32 := by decide
    have f : Kind.fits ⟨.w64, true⟩ x = true := by
      simp [Kind.fits, Kind.lo, Kind.hi, int32, Width.bits] at hx ⊢; omega
    have d : x.tdiv (2 ^ 32) = 0 := by
      simp [Kind.fits, Kind.lo, Kind.hi, int32, Width.bits] at hx
      rcases Int.le_total 0 x with h | h
      · exact Int.tdiv_eq_zero_of_lt h (by omega)
      · have := Int.tdiv_eq_zero_of_lt (a := -x) (b := 2 ^ 32) (by omega) (by omega)
        rw [Int.neg_tdiv] at this
        omega
    have z : Kind.fits ⟨.w64, true⟩ 0 = true := by decide
    have z2 : int32.conv 0 = 0 := by decide
    simp only [stepPlain, c, b, conv_of_fits _ _ f, arith]
    rw [if_neg (by decide), d]
    simp [z, z2]
  · have z : int32.conv (2 ^ 32) = 0 := by decide
    have p : (promote int32).conv 0 = 0 := by decide
    simp only [stepExcl, Operand.to, z, p, arith]
    simp

example : int32.fits (-5) = true := by decide

/-- **C121 fails**: an `unsigned char` is not different from an `int` that it differs from by a
multiple of 256. -/
theorem C121_fails_unequal (rnd : Rat → Rat) (x m : Int) (hx : 0 ≤ x ∧ x ≤ 255) (hm : m ≠ 0)
    (hv : int32.fits (x + 256 * m) = true) :
    stepPlain rnd ⟨.w8, false⟩ x (.ne (.int int32 (x + 256 * m))) = some (x, [1]) ∧
    stepExcl ⟨.w8, false⟩ x (.ne (.int int32 (x + 256 * m))) = some (x, [0]) := by
  have fx : int32.fits x = true := by
    simp [Kind.fits, Kind.lo, Kind.hi, int32, Width.bits]; omega
  constructor
  · have c : common ⟨.w8, false⟩ int32 = int32 := by decide
    simp only [stepPlain, c, conv_of_fits _ _ hv, conv_of_fits _ _ fx]
    have : (x != x + 256 * m) = true := by simp; omega
    simp [this, bit]
  · have : Kind.conv ⟨.w8, false⟩ (x + 256 * m) = x := by
      simp [Kind.conv, Kind.hi, Width.bits]; omega
    simp [stepExcl, Operand.to, this, bit]

example : int32.fits (44 + 256 * 1) = true := by decide

/-! ## `bool` -/

/-- Operands without a call, and masks that are themselves `bool`. -/
def C121.Quiet : BAct → Prop
  | .and fs _ => fs = []
  | .or fs _ => fs = []
  | .andSet n => n = 0 ∨ n = 1
  | _ => True

/-- **C121** (part): a program with a `bool` does the same with the wrapper if the second operands
of `&&` and `||` call nothing and `&=` is given nought or one. -/
theorem C121_bool_partial (x : Bool) (prog : List BAct) (h : ∀ a ∈ prog, C121.Quiet a) :
    brun bstepExcl x prog = brun bstepPlain x prog := by
  induction prog generalizing x with
  | nil => rfl
  | cons a as ih =>
    have e : bstepExcl x a = bstepPlain x a := by
      have ha := h a (by simp)
      cases a <;> simp only [C121.Quiet] at ha <;> cases x <;>
        simp_all [bstepExcl, bstepPlain]
      rcases ha with rfl | rfl <;> simp
    simp only [brun, e]
    rw [ih _ (fun b hb => h b (by simp [hb]))]

example : ∀ a ∈ [BAct.and [] true, .andSet 1, .orSet 6, .not], C121.Quiet a := by
  simp [C121.Quiet]

/-- **C121 fails**: the second operand of `&&` is evaluated although the first is false, and of `||`
although it is true. -/
theorem C121_fails_short (fs : List Nat) (b : Bool) :
    bstepPlain false (.and fs b) = (false, [.wrote false]) ∧
    bstepExcl false (.and fs b) = (false, fs.map .call ++ [.wrote false]) ∧
    bstepPlain true (.or fs b) = (true, [.wrote true]) ∧
    bstepExcl true (.or fs b) = (true, fs.map .call ++ [.wrote true]) := by
  simp [bstepPlain, bstepExcl]

example : bstepExcl false (.and [3] true) = (false, [.call 3, .wrote false]) := by decide

/-- **C121 fails**: `x &= n` for an even `n` clears a `bool`, but not a wrapped one. -/
theorem C121_fails_mask (n : Int) (h : n ≠ 0) :
    bstepPlain true (.andSet (2 * n)) = (false, []) ∧
    bstepExcl true (.andSet (2 * n)) = (true, []) := by
  constructor
  · simp [bstepPlain]
  · simp [bstepExcl, h]

/-! ## Pointers -/

/-- Assignments of pointers to an element of the array. -/
def C121.Live (n : Nat) : PAct → Prop
  | .set (some i) => i < n
  | .set none => False
  | _ => True

private theorem plain_len (s t : PState) (a : PAct) (out : List POut)
    (h : pstepPlain s a = some (t, out)) : t.mem.length = s.mem.length := by
  cases a <;> simp only [pstepPlain] at h
  case write v =>
    split at h
    · cases h; simp
    · cases h
  all_goals
    simp only [Option.map_eq_some_iff, Option.some.injEq, Prod.mk.injEq] at h
    first
      | (obtain ⟨rfl, _⟩ := h; rfl)
      | (obtain ⟨_, _, rfl, _⟩ := h; rfl)

/-- **C121** (part): a program with a pointer does the same with the wrapper if it is only assigned
pointers to elements of the array. -/
theorem C121_pointer_partial (s : PState) (prog : List PAct)
    (h : ∀ a ∈ prog, C121.Live s.mem.length a) :
    prun pstepExcl s prog = prun pstepPlain s prog := by
  induction prog generalizing s with
  | nil => rfl
  | cons a as ih =>
    have e : pstepExcl s a = pstepPlain s a := by
      have ha := h a (by simp)
      cases a with
      | set p =>
        cases p with
        | none => exact ha.elim
        | some i =>
          have hi : i < s.mem.length := ha
          simp [pstepExcl, pstepPlain, deref, hi]
      | _ => rfl
    unfold prun
    rw [e]
    split
    · rfl
    · rename_i t out hs
      rw [ih t (fun b hb => by rw [plain_len s t a out hs]; exact h b (by simp [hb]))]

example : ∀ a ∈ [PAct.set (some 1), .write 7, .add 1, .rsub (some 2), .ne none],
    C121.Live [4, 5].length a := by simp [C121.Live]

/-- **C121 fails**: assigning null, or the end of the array, follows the pointer. -/
theorem C121_fails_null (s : PState) (p : Ptr) (h : ∀ i, p = some i → s.mem.length ≤ i) :
    pstepPlain s (.set p) = some ({ s with x := p }, []) ∧ pstepExcl s (.set p) = none := by
  cases p with
  | none => simp [pstepPlain, pstepExcl, deref]
  | some i =>
    have := h i rfl
    simp [pstepPlain, pstepExcl, deref, this]

example : ∀ i, (none : Ptr) = some i → [4, 5].length ≤ i := by simp

/-- **C121 fails**: compared with a fractional number an integer is unequal to it; an excluded one is equal to the number whose integral
part it is. -/
theorem C121_fails_fraction (rnd : Rat → Rat) (exact : ∀ n : Int, -2 ^ 53 ≤ n → n ≤ 2 ^ 53 → rnd n = n)
    (n : Int) (h0 : 0 ≤ n) (h1 : n < 2 ^ 31) :
    stepPlain rnd int32 n (.ne (.real (n + 1 / 2))) = some (n, [1]) ∧
    stepPlain rnd int32 n (.ne (.real n)) = some (n, [0]) ∧
    stepExcl int32 n (.ne (.real (n + 1 / 2))) = some (n, [0]) := by
  have hn : rnd n = n := exact n (by omega) (by omega)
  refine ⟨?_, ?_, ?_⟩
  · have : ((n : Rat) != n + 1 / 2) = true := by
      simp only [bne_iff_ne]
      grind
    simp [stepPlain, hn, this, bit]
  · simp [stepPlain, hn, bit]
  · have t : trunc ((n : Rat) + 1 / 2) = n := by
      have q0 : (0 : Rat) ≤ (n : Rat) + 1 / 2 := by
        have : (0 : Rat) ≤ n := by exact_mod_cast h0
        grind
      have e : trunc ((n : Rat) + 1 / 2) = ((n : Rat) + 1 / 2).floor := by
        rw [Rat.floor_def, trunc, Int.tdiv_eq_ediv_of_nonneg (Rat.num_nonneg.2 q0)]
      have a : n ≤ ((n : Rat) + 1 / 2).floor := Rat.le_floor_iff.2 (by grind)
      have b : ((n : Rat) + 1 / 2).floor < n + 1 := Rat.floor_lt_iff.2 (by rw [Rat.intCast_add]; grind)
      omega
    have f : int32.fits n = true := by
      simp [Kind.fits, Kind.lo, Kind.hi, int32, Width.bits]; omega
    simp [stepExcl, Operand.to, t, f, bit]

end Verif.ExWrap
