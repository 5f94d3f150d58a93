import Verif.Props.Json
/-
C22, C23: what reading a JSON value into an object of a basic type gives, and what happens to a
sequence when one of its elements cannot be read.
-/
namespace Verif.Json
open OMap EnumKeys

/-! ### Specification -/

/-- Number of bits of an integral type. -/
def bits : Width → Nat
  | .w8 => 8
  | .w16 => 16
  | .w32 => 32
  | .w64 => 64

/-- The values of an integral type. -/
def InType (u : Under) (v : Int) : Prop :=
  if u.signed then -(2 : Int) ^ (bits u.width - 1) ≤ v ∧ v < 2 ^ (bits u.width - 1)
  else 0 ≤ v ∧ v < 2 ^ bits u.width

/-- The value a JSON value stands for in an object of a basic type.  A number out of range is reduced
modulo a power of two, as C++ conversions do. -/
inductive Denotes (lib : Lib) : JT → J → JV → Prop
  | bool (b : Bool) : Denotes lib .bool (.bool b) (.bool b)
  | int (u : Under) (i v : Int) : InType u v → (∃ k, i = v + k * 2 ^ bits u.width) → Denotes lib (.int u) (.int i) (.int v)
  | real (r : Nat) : Denotes lib .real (.real r) (.real r)
  | realInt (i : Int) : Denotes lib .real (.int i) (.real (lib.ofInt i))
  | realNull : Denotes lib .real .null (.real lib.nan)
  | flt (r : Nat) : Denotes lib .flt (.real r) (.real (lib.narrow r))
  | fltInt (i : Int) : Denotes lib .flt (.int i) (.real (lib.narrow (lib.ofInt i)))
  | fltNull : Denotes lib .flt .null (.real (lib.narrow lib.nan))
  | char (c : UInt8) (s : Str) : Denotes lib .char (.str (c :: s)) (.str [c])
  | str (s : Str) : Denotes lib .str (.str s) (.str s)

private theorem mod_eq (w : Width) : w.modulus = 2 ^ bits w := by cases w <;> rfl
private theorem half_eq (w : Width) : w.modulus / 2 = 2 ^ (bits w - 1) := by cases w <;> rfl

/-- Conversion to an integral type: in range, and the same modulo a power of two. -/
theorem cast_holds (u : Under) (v : Int) : InType u (cast u v) ∧ ∃ k, v = cast u v + k * 2 ^ bits u.width := by
  have hm : 0 < u.width.modulus := by cases u.width <;> decide
  have h2 : u.width.modulus = 2 * (u.width.modulus / 2) := by cases u.width <;> decide
  have h4 := mod_eq u.width
  have h5 := half_eq u.width
  unfold InType EnumKeys.cast
  rw [← h4, ← h5]
  generalize u.width.modulus / 2 = h at *
  generalize u.width.modulus = m at *
  cases u.signed
  · simp only [Bool.false_eq_true, if_false]
    refine ⟨⟨Int.emod_nonneg _ (by omega), Int.emod_lt_of_pos _ hm⟩, v / m, ?_⟩
    have := Int.mul_ediv_add_emod v m
    rw [Int.mul_comm] at this
    omega
  · simp only [if_true]
    have h1 := Int.emod_nonneg (v + h) (show m ≠ 0 by omega)
    have h3 := Int.emod_lt_of_pos (v + h) hm
    refine ⟨⟨by omega, by omega⟩, (v + h) / m, ?_⟩
    have := Int.mul_ediv_add_emod (v + h) m
    rw [Int.mul_comm] at this
    omega

private theorem via_dvd (u : Under) : ∃ k, (2 : Int) ^ bits (via u).width = k * 2 ^ bits u.width := by
  rcases u with ⟨w, s⟩
  cases w <;> cases s
  · exact ⟨2 ^ 24, by decide⟩
  · exact ⟨2 ^ 24, by decide⟩
  · exact ⟨2 ^ 16, by decide⟩
  · exact ⟨2 ^ 16, by decide⟩
  · exact ⟨2 ^ 32, by decide⟩
  · exact ⟨1, by decide⟩
  · exact ⟨1, by decide⟩
  · exact ⟨1, by decide⟩

/-- C23: whatever was in the document elsewhere, a basic member found in it is assigned the value it
stands for. -/
theorem C23_assigns (lib : Lib) (t : JT) (o : JP) (cs : List Str) (hd : DotFrees cs) (j : J) (v dst : JV)
    (hx : walk o.v cs = .ok j) (h : Denotes lib t j v) : unpackJ lib t o (render cs) dst = (.ok, v) := by
  have hf : find o.v (render cs) = .ok j := by rw [find_render hd, hx]
  cases h with
  | int u i v h1 h2 =>
    have h3 := cast_holds u (cast (via u) i)
    obtain ⟨k1, e1⟩ := (cast_holds (via u) i).2
    obtain ⟨k2, e2⟩ := h3.2
    obtain ⟨k3, e3⟩ := h2
    obtain ⟨k4, e4⟩ := via_dvd u
    have key : cast u (cast (via u) i) = v := by
      generalize cast u (cast (via u) i) = x at *
      have hp : (0 : Int) < 2 ^ bits u.width := by cases u.width <;> decide
      have hh : (2 : Int) ^ bits u.width = 2 * 2 ^ (bits u.width - 1) := by cases u.width <;> decide
      have e : x - v = (k3 - k2 - k1 * k4) * 2 ^ bits u.width := by
        have e5 : k1 * 2 ^ bits (via u).width = k1 * k4 * 2 ^ bits u.width := by rw [e4, Int.mul_assoc]
        rw [Int.sub_mul, Int.sub_mul]
        omega
      have hr : -(2 : Int) ^ bits u.width < x - v ∧ x - v < 2 ^ bits u.width := by
        have := h3.1
        unfold InType at h1 this
        cases hs : u.signed <;> simp only [hs, if_true, if_false, Bool.false_eq_true] at h1 this <;> omega
      generalize k3 - k2 - k1 * k4 = q at e
      have hq : q = 0 := by
        rcases Int.lt_trichotomy q 0 with h | h | h
        · have : q * 2 ^ bits u.width ≤ (-1) * 2 ^ bits u.width :=
            Int.mul_le_mul_of_nonneg_right (by omega) (by omega)
          omega
        · exact h
        · have : 1 * (2 : Int) ^ bits u.width ≤ q * 2 ^ bits u.width :=
            Int.mul_le_mul_of_nonneg_right (by omega) (by omega)
          omega
      rw [hq] at e
      omega
    simp [unpackJ, unpackLeaf, hf, R.bind, getInt, catchU, key]
  | _ => simp [unpackJ, unpackLeaf, hf, R.bind, getBool, getReal, getFlt, getChar, getStr, catchU]

/-- Every boolean, number, null (for a double) and string that is not empty (for a character) stands
for exactly one value. -/
theorem C23_denotes_int (lib : Lib) (u : Under) (i : Int) : ∃ v, Denotes lib (.int u) (.int i) v :=
  ⟨_, .int u i _ (cast_holds u i).1 (cast_holds u i).2⟩

example (lib : Lib) : unpackJ lib (.int ⟨.w8, true⟩) ⟨.obj [([120], .int 200)], true, true⟩ (render [[120]]) (.int 7)
    = (.ok, .int (-56)) :=
  C23_assigns lib _ _ [[120]] (by intro c hc; simp at hc; subst hc; unfold DotFree; decide) (.int 200) _ _ rfl
    (.int _ _ _ (by unfold InType; decide) ⟨1, by decide⟩)

/-! ### Sequences -/

/-- C23: when an element of a sequence cannot be read, the elements before it have been assigned, and it
and those after it have the values they had (new ones: the default); no element is lost. -/
theorem C23_element (lib : Lib) (t : JT) (o : JP) (cs : List Str) (hd : DotFrees cs) (good : List J) (bad : J)
    (rest : List J) (hx : walk o.v cs = .ok (.arr (good ++ bad :: rest))) (old vs : List JV) (e : Err)
    (hg : ∀ (i : Nat) (j : J) (w : JV), good[i]? = some j → ∃ v, vs[i]? = some v ∧ unpackJ lib t (.mk' j) [] w = (.ok, v))
    (hl : vs.length = good.length)
    (hb : ∀ w, unpackJ lib t (.mk' bad) [] w = (.throw e, w)) :
    ∃ new : List JV, (unpackJ lib (.seq t) o (render cs) (.seq old)).2 = .seq new ∧
      new.length = good.length + 1 + rest.length ∧
      ∀ i, i < new.length → new[i]? =
        if i < good.length then vs[i]? else if i < old.length then old[i]? else some (dflt t) := by
  have hf : find o.v (render cs) = .ok (.arr (good ++ bad :: rest)) := by rw [find_render hd, hx]
  have key : ∀ (good : List J) (vs l : List JV), vs.length = good.length →
      (∀ (i : Nat) (j : J) (w : JV), good[i]? = some j → ∃ v, vs[i]? = some v ∧ unpackJ lib t (.mk' j) [] w = (.ok, v)) →
      l.length = good.length + 1 + rest.length →
      each (fun j y => unpackJ lib t (.mk' j) [] y) (good ++ bad :: rest) l = (.throw e, vs ++ l.drop good.length) := by
    intro good
    induction good with
    | nil =>
      intro vs l h1 _ h3
      have : vs = [] := List.length_eq_zero_iff.1 h1
      subst this
      cases l with
      | nil => simp only [List.length_nil] at h3; omega
      | cons x xs =>
        simp only [List.nil_append, each, hb, List.length_nil, List.drop_zero]
    | cons j js ih =>
      intro vs l h1 h2 h3
      cases vs with
      | nil => simp at h1
      | cons v vs =>
        cases l with
        | nil => simp only [List.length_nil, List.length_cons] at h3; omega
        | cons x xs =>
          obtain ⟨v', e1, e2⟩ := h2 0 j x rfl
          cases e1
          have := ih vs xs (by simpa using h1) (fun i j' w h => h2 (i + 1) j' w h)
            (by simp only [List.length_cons] at h3; omega)
          simp only [List.cons_append, each, e2, this, List.length_cons, List.drop_succ_cons]
  have hlen : (resize (good ++ bad :: rest).length (dflt t) old).length = good.length + 1 + rest.length := by
    simp only [resize, List.length_append, List.length_take, List.length_replicate, List.length_cons]; omega
  have hk := key good vs _ hl hg hlen
  have h2 : (unpackJ lib (.seq t) o (render cs) (.seq old)).2 =
      .seq (vs ++ (resize (good ++ bad :: rest).length (dflt t) old).drop good.length) := by
    simp only [unpackJ, unSeq, hf, JV.elems, hk, catchU]
    split <;> rfl
  refine ⟨_, h2, ?_, ?_⟩
  · rw [List.length_append, List.length_drop, hlen, hl]; omega
  · intro i hi
    rw [List.length_append, List.length_drop, hlen, hl] at hi
    by_cases h : i < good.length
    · rw [if_pos h, List.getElem?_append_left (by omega)]
    · rw [if_neg h, List.getElem?_append_right (by omega), List.getElem?_drop, hl]
      have : good.length + (i - good.length) = i := by omega
      rw [this, resize]
      by_cases h' : i < old.length
      · rw [if_pos h', List.getElem?_append_left (by simp [List.length_take]; omega), List.getElem?_take]
        rw [if_pos (by simp; omega)]
      · rw [if_neg h', List.getElem?_append_right (by simp [List.length_take]; omega)]
        rw [List.getElem?_replicate, if_pos]
        simp only [List.length_take, List.length_append, List.length_cons]; omega

example : (unpackJ lib0 (.seq .bool) ⟨.arr [.bool true, .int 0, .bool true], true, true⟩ [] (.seq [.bool false, .bool true])).2
    = .seq [.bool true, .bool true, .bool false] := by rfl

/-- C23: the same for a C array of one dimension: elements after one that cannot be read keep their values. -/
theorem C23_array_element (lib : Lib) (o : JP) (cs : List Str) (hd : DotFrees cs) (a c : Bool) (x y z : JV) (s : Str)
    (hm : lib.mm = .lib) (hx : walk o.v cs = .ok (.arr [.bool a, .str s, .bool c])) :
    (unpackJ lib (.carr [3] .bool) o (render cs) (.seq [x, y, z])).2 = .seq [.bool a, y, z] := by
  have hf : find o.v (render cs) = .ok (.arr [.bool a, .str s, .bool c]) := by rw [find_render hd, hx]
  have hfind : ∀ j, find j [] = .ok j := fun _ => rfl
  cases ho : o.throwOnError <;>
    simp [unpackJ, hf, unArr, unArr.go, prod, unpackLeaf, JP.mk', hfind, R.bind, getBool, catchU, JV.elems, Err.isPack, hm]

end Verif.Json
