import Verif.PyIndex
import Verif.Props.PyCon
/-
C136: classes with operator[] behind the wrappers of a Python module.
-/
namespace Verif.PyIndex
open Verif.Json (J R Oc Lib)
open Verif.Rest
open Verif.Rest.C88 (Fits)
open Verif.PyCon
open Verif.PyCon.C91 (Ans Says All)

/-! ### What is expected -/

/-- Statements about a list of fixed length. -/
inductive C136.FOp
  | len
  | get (i : Nat)
  | set (i : Nat) (j : J) (v : VV)

/-- How they are written with a wrapper. -/
def C136.FOp.op : C136.FOp → PyCon.Op
  | .len => .len
  | .get i => .get (.int i)
  | .set i j _ => .set (.int i) j

/-- The JSON value is that value of the element type; indices are below `n`. -/
def C136.FOp.Ok (k : VK) (n : Nat) : C136.FOp → Prop
  | .len => True
  | .get i => i < n
  | .set i j v => i < n ∧ Fits k j v

/-- What they do. -/
def C136.does (xs : List VV) : C136.FOp → Ans Unit × List VV
  | .len => (.num xs.length, xs)
  | .get i => if h : i < xs.length then (.elem xs[i], xs) else (.exception, xs)
  | .set i _ v => if i < xs.length then (.nothing, xs.set i v) else (.exception, xs)

def C136.runs : List VV → List C136.FOp → List (Ans Unit) × List VV
  | xs, [] => ([], xs)
  | xs, o :: os => let r := C136.does xs o; let q := C136.runs r.2 os; (r.1 :: q.1, q.2)

open C136 (FOp does runs)

private theorem readIdx_int (lib : Lib) (i : Int) : readIdx lib (.int i) = .ok (i % 2 ^ 64).toNat := by
  have : EnumKeys.cast size_t (EnumKeys.cast (Json.via size_t) i) = (i : Int) % 2 ^ 64 := by
    simp only [size_t, Json.via, EnumKeys.cast, EnumKeys.Width.modulus]
    simp
  simp [readIdx, Json.getInt, this]

private theorem readIdx_nat (lib : Lib) (i : Nat) (h : i < 2 ^ 63) : readIdx lib (.int i) = .ok i := by
  rw [readIdx_int]
  simp only [R.ok.injEq]
  omega

private theorem unpack_fits {lib : Lib} {k : VK} {j : J} {v : VV} (h : Fits k j v) (x : VV) :
    unpackVar lib k j x = (.ok, v) := by
  cases h with
  | @int u i hi h64 =>
    have : EnumKeys.cast u (EnumKeys.cast (Json.via u) i) = i := by
      obtain ⟨w, s⟩ := u
      cases w <;> cases s <;>
        simp only [EnumKeys.InRange, Json.via, EnumKeys.cast, EnumKeys.Width.modulus, int64] at * <;> grind
    simp [unpackVar, Json.getInt, R.bind, this]
  | bool => simp [unpackVar, Json.getBool, R.bind]
  | real => simp [unpackVar, Json.getReal, R.bind]
  | str => simp [unpackVar, Json.getStr, R.bind]

private theorem runs_both (lib : Lib) (ck : Bool) (k : VK) (shk : Unit → J) (n : Nat) (hn : n ≤ 2 ^ 63) :
    ∀ (os : List FOp) (xs : List VV), (∀ o ∈ os, o.Ok k n) → (ck = true ∨ n ≤ xs.length) →
    All lib shk (runs xs os).1 (run (step lib ⟨true, true, false, ck⟩ k) xs (os.map FOp.op)).1 ∧
      (run (step lib ⟨true, true, false, ck⟩ k) xs (os.map FOp.op)).2 = (runs xs os).2
  | [], xs, _, _ => ⟨.nil, rfl⟩
  | o :: os, xs, h, hk => by
    have ho := h o (by simp)
    have key : Says lib shk (does xs o).1 (step lib ⟨true, true, false, ck⟩ k xs o.op).1 ∧
        (step lib ⟨true, true, false, ck⟩ k xs o.op).2 = (does xs o).2 ∧ (does xs o).2.length = xs.length := by
      cases o with
      | len => exact ⟨.num _, rfl, rfl⟩
      | get i =>
        have hi' : i < n := ho
        simp only [FOp.op, step, getElem, does, readIdx_nat lib i (by omega), if_true]
        by_cases hi : i < xs.length
        · simp only [hi, dif_pos, List.getElem?_eq_getElem hi, and_true]; exact .elem _
        · have hc : ck = true := hk.resolve_right (by omega)
          simp only [hi, dif_neg, not_false_eq_true, List.getElem?_eq_none (Nat.le_of_not_lt hi), and_true, beyond, hc,
            if_true]
          exact .exception
      | set i j v =>
        have hi' : i < n := ho.1
        simp only [FOp.op, step, setElem, does, readIdx_nat lib i (by omega), and_self, if_true]
        by_cases hi : i < xs.length
        · simp only [hi, if_pos, List.getElem?_eq_getElem hi, unpack_fits ho.2, done, List.length_set, and_true]
          exact .nothing
        · have hc : ck = true := hk.resolve_right (by omega)
          simp only [hi, if_neg, not_false_eq_true, List.getElem?_eq_none (Nat.le_of_not_lt hi), and_true, beyond, hc,
            if_true]
          exact .exception
    obtain ⟨h1, h2⟩ := runs_both lib ck k shk n hn os (does xs o).2 (fun o' ho' => h o' (by simp [ho'])) (by
      rw [key.2.2]; exact hk)
    simp only [List.map_cons, run, runs, key.2.1]
    exact ⟨.cons key.1 h1, h2⟩

/-- C136: every program with `len(w)`, `w[i]` and `w[i]=v` gets the answers a list of fixed length gives and leaves the
same elements, if the class's `operator[]` throws when the index is too large. -/
theorem C136_list_partial (lib : Lib) (k : VK) (shk : Unit → J) (os : List FOp) (xs : List VV)
    (h : ∀ o ∈ os, o.Ok k (2 ^ 63)) :
    All lib shk (runs xs os).1 (run (step lib ⟨true, true, false, true⟩ k) xs (os.map FOp.op)).1 ∧
      (run (step lib ⟨true, true, false, true⟩ k) xs (os.map FOp.op)).2 = (runs xs os).2 :=
  runs_both lib true k shk _ (Nat.le_refl _) os xs h (.inl rfl)

/-- Where it does not throw, that is so for indices below the length. -/
theorem C136_below_partial (lib : Lib) (ck : Bool) (k : VK) (shk : Unit → J) (os : List FOp) (xs : List VV)
    (hx : xs.length ≤ 2 ^ 63) (h : ∀ o ∈ os, o.Ok k xs.length) :
    All lib shk (runs xs os).1 (run (step lib ⟨true, true, false, ck⟩ k) xs (os.map FOp.op)).1 ∧
      (run (step lib ⟨true, true, false, ck⟩ k) xs (os.map FOp.op)).2 = (runs xs os).2 :=
  runs_both lib ck k shk _ hx os xs h (.inr (Nat.le_refl _))

private theorem unpack_none (lib : Lib) (k : VK) (x : VV) :
    (k = .real → (unpackVar lib k .null x).2 = .real lib.nan) ∧ (k ≠ .real → (unpackVar lib k .null x).2 = x) := by
  cases k <;> simp [unpackVar, Json.getInt, Json.getBool, Json.getReal, Json.getStr, R.bind] <;> split <;> rfl

/-- No program changes a const object, whatever it is passed, or the number of elements of any. -/
theorem C136_const (lib : Lib) (c : Cls) (k : VK) :
    ∀ (os : List PyCon.Op) (xs : List VV), (run (step lib c k) xs os).2.length = xs.length ∧
      (c.const = true → (run (step lib c k) xs os).2 = xs)
  | [], _ => ⟨rfl, fun _ => rfl⟩
  | o :: os, xs => by
    have hs : ∀ j v, (setElem lib c k xs j v).2.length = xs.length ∧ (c.const = true → (setElem lib c k xs j v).2 = xs) := by
      intro j v
      simp only [setElem]
      split
      · rename_i hc
        refine ⟨?_, fun h => by simp [h] at hc⟩
        split <;> try rfl
        split <;> simp
      · exact ⟨rfl, fun _ => rfl⟩
    have key : (step lib c k xs o).2.length = xs.length ∧ (c.const = true → (step lib c k xs o).2 = xs) := by
      cases o <;> simp only [step] <;> first | exact hs _ _ | simp
    have ih := C136_const lib c k os (step lib c k xs o).2
    simp only [run]
    refine ⟨ih.1.trans key.1, fun hc => ?_⟩
    rw [ih.2 hc, key.2 hc]

/-- An index that is too large, or counts from the end, reaches `operator[]` as it is: the behaviour is undefined unless
the class tests it, although the number of elements is known. -/
theorem C136_fails_unchecked (lib : Lib) (k : VK) (xs : List VV) (hx : xs.length < 2 ^ 63) (i : Int)
    (hi : -(2 : Int) ^ 63 ≤ i ∧ i < 2 ^ 63) (ho : i < 0 ∨ xs.length ≤ i) (v : J) :
    step lib ⟨true, true, false, false⟩ k xs (.get (.int i)) = (.ub, xs) ∧
      step lib ⟨true, true, false, false⟩ k xs (.set (.int i) v) = (.ub, xs) := by
  have h3 : xs[(i % 2 ^ 64).toNat]? = none := List.getElem?_eq_none (by omega)
  simp only [step, getElem, setElem, readIdx_int, beyond, h3, and_self, if_true, Bool.false_eq_true, if_false]

/-- Indices from the end are refused where it does. -/
theorem C136_fails_negative (lib : Lib) (k : VK) (xs : List VV) (hx : xs.length < 2 ^ 63) (i : Int)
    (hi : -(2 : Int) ^ 63 ≤ i ∧ i < 0) (v : J) :
    step lib ⟨true, true, false, true⟩ k xs (.get (.int i)) = (.error, xs) ∧
      step lib ⟨true, true, false, true⟩ k xs (.set (.int i) v) = (.error, xs) := by
  have h3 : xs[(i % 2 ^ 64).toNat]? = none := List.getElem?_eq_none (by omega)
  simp only [step, getElem, setElem, readIdx_int, beyond, h3, and_self, if_true, Bool.false_eq_true, if_false]

/-- Assigning to an element of a const object, or of an object whose class has no `operator[]` or has not been announced
to have one, is not an exception: nothing happens. -/
theorem C136_fails_silent (lib : Lib) (c : Cls) (k : VK) (xs : List VV) (j v : J) :
    (c.index = false → step lib c k xs (.set j v) = (.value .null, xs) ∧ step lib c k xs (.get j) = (.value .null, xs)) ∧
    (c.const = true → ∀ i, i < xs.length → i < 2 ^ 63 → step lib c k xs (.set (.int i) v) = (.value .null, xs)) := by
  constructor
  · intro h
    simp [step, setElem, getElem, h, drop]
  · intro h i hi h63
    simp only [step, setElem, h, Bool.true_eq_false, false_and, if_false, getElem, readIdx_nat lib i h63,
      List.getElem?_eq_getElem hi]
    split <;> rfl

/-- `insert` and `erase` do nothing either, and nothing is contained. -/
theorem C136_fails_methods (lib : Lib) (c : Cls) (k : VK) (xs : List VV) (j : J) :
    step lib c k xs (.insert j) = (.value .null, xs) ∧ step lib c k xs (.erase j) = (.value .null, xs) ∧
      step lib c k xs (.contains j) = (.value (.bool false), xs) ∧ step lib c k xs .keys = (.value .null, xs) :=
  ⟨rfl, rfl, rfl, rfl⟩

/-- Anything but a number in place of the index, where the library says so with the exception that the buffer swallows: the
index is used without having been set. -/
theorem C136_fails_no_index (lib : Lib) (hl : lib.mm.isPack = true) (c : Cls) (hc : c.index = true) (k : VK) (xs : List VV)
    (j v : J) (hj : ∀ i, j ≠ .int i) :
    step lib c k xs (.get j) = (.ub, xs) ∧ step lib c k xs (.set j v) = (.ub, xs) := by
  have h : readIdx lib j = .ub := by
    cases j <;> first | exact absurd rfl (hj _) | simp [readIdx, Json.getInt, hl]
  refine ⟨by simp [step, getElem, hc, h], ?_⟩
  simp only [step, setElem, getElem, hc, h, if_true, drop]
  split <;> rfl

/-- A class without `size()` has length 0, however many elements it has. -/
theorem C136_fails_length (lib : Lib) (c : Cls) (h : c.size = false) (k : VK) (xs : List VV) :
    step lib c k xs .len = (.value (.int 0), xs) := by
  simp [step, h]

/-- `del w[i]` removes nothing: numbers in floating point become NaN, others stay. -/
theorem C136_fails_del (lib : Lib) (ck : Bool) (k : VK) (xs : List VV) (i : Nat) (hi : i < xs.length) (h63 : i < 2 ^ 63) :
    (k = .real → (step lib ⟨true, true, false, ck⟩ k xs (.del (.int i))).2 = xs.set i (.real lib.nan)) ∧
      (k ≠ .real → (step lib ⟨true, true, false, ck⟩ k xs (.del (.int i))).2 = xs) := by
  simp only [step, setElem, and_self, if_true, readIdx_nat lib i h63, List.getElem?_eq_getElem hi]
  constructor
  · intro h; rw [(unpack_none lib k _).1 h]
  · intro h; rw [(unpack_none lib k _).2 h]; exact List.set_getElem_self hi

/-! ### Examples -/

private def exLib : Lib := ⟨.lib, 0, fun i => i.toNat, id, id⟩

example : ∀ o ∈ [FOp.len, .get 1, .set 0 (.int 5) (.int 5), .get 7], o.Ok (.int EnumKeys.int32) (2 ^ 63) := by
  intro o h
  simp only [List.mem_cons, List.not_mem_nil, or_false] at h
  rcases h with rfl | rfl | rfl | rfl
  · trivial
  · exact (by decide : 1 < 2 ^ 63)
  · refine ⟨by decide, .int ?_ ?_⟩ <;>
      simp only [EnumKeys.InRange, EnumKeys.int32, int64, EnumKeys.Width.modulus, if_true] <;> omega
  · exact (by decide : 7 < 2 ^ 63)

example : (runs [.int 1, .int 2] [.len, .get 1, .set 0 (.int 5) (.int 5), .get 0, .get 7]).1 =
    [.num 2, .elem (.int 2), .nothing, .elem (.int 5), .exception] := rfl
/-- C136: where the library's exception for what is not a number is another one it gets to Python, and nothing is changed; so does the
one of `operator[]`, also when an element of a const object is assigned to. -/
theorem C136_refused_partial (lib : Lib) (c : Cls) (hc : c.index = true) (k : VK) (xs : List VV) (j v : J) :
    (lib.mm.isPack = false → (∀ i, j ≠ .int i) →
      step lib c k xs (.get j) = (.error, xs) ∧ step lib c k xs (.set j v) = (.error, xs) ∧ step lib c k xs (.del j) = (.error, xs)) ∧
    (c.checks = true → ∀ i, xs.length ≤ i → i < 2 ^ 63 →
      step lib c k xs (.get (.int i)) = (.error, xs) ∧ step lib c k xs (.set (.int i) v) = (.error, xs)) := by
  constructor
  · intro hl hj
    have h : readIdx lib j = .throw lib.mm := by
      cases j <;> first | exact absurd rfl (hj _) | simp [readIdx, Json.getInt, hl]
    refine ⟨by simp [step, getElem, hc, h], ?_, ?_⟩ <;>
      · simp only [step, setElem, getElem, hc, h, if_true, drop]
        split <;> rfl
  · intro hk i hi h63
    have h := readIdx_nat lib i h63
    have hn : xs[i]? = none := List.getElem?_eq_none hi
    refine ⟨by simp [step, getElem, hc, h, hn, beyond, hk], ?_⟩
    simp only [step, setElem, getElem, hc, h, hn, beyond, hk, if_true, drop]
    split <;> rfl

/-- Where the class does not test the index, assigning to an element of a const object that is not there is undefined too. -/
theorem C136_fails_const_unchecked (lib : Lib) (c : Cls) (hc : c.index = true) (hk : c.checks = false) (k : VK) (xs : List VV) (v : J)
    (i : Nat) (hi : xs.length ≤ i) (h63 : i < 2 ^ 63) : step lib c k xs (.set (.int i) v) = (.ub, xs) := by
  have h := readIdx_nat lib i h63
  have hn : xs[i]? = none := List.getElem?_eq_none hi
  simp only [step, setElem, getElem, hc, h, hn, beyond, hk, if_true, drop, Bool.false_eq_true, if_false]
  split <;> rfl


end Verif.PyIndex
