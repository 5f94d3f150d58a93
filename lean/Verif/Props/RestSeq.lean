import Verif.RestSeq
/-
C43: elements of sequences through the REST interface.
-/
namespace Verif.Rest
open EnumKeys
open Verif.Json (J Lib Err getInt dot)
open Verif.Xml (isDigit valD signed)

theorem C43.readIdx_int (lib : Lib) (i : Int) (h : -(2 : Int) ^ 63 ≤ i ∧ i < 2 ^ 63) :
    readIdx lib (.int i) = .ok (i % 2 ^ 64).toNat := by
  have : EnumKeys.cast size_t (EnumKeys.cast (Json.via size_t) i) = i % 2 ^ 64 := by
    simp only [size_t, Json.via, EnumKeys.cast, Width.modulus]
    simp
  simp [readIdx, getInt, this]

private theorem readIdx_other (lib : Lib) (hl : lib.mm = .lib) (j : J) (h : ∀ i, j ≠ .int i) :
    readIdx lib j = .throw .lib := by
  cases j <;> simp_all [readIdx, getInt, Err.isPack]

/-- An index in range gives a reference to that element. -/
theorem C43_get {E : Type} (lib : Lib) (xs : List E) (i : Nat) (h : i < xs.length) (hs : xs.length < 2 ^ 63) :
    getElem lib xs (.int i) = .ref i := by
  have e : ((i : Int) % 2 ^ 64).toNat = i := by omega
  simp only [getElem, C43.readIdx_int lib i (by omega), e, h, if_true]

/-- An index out of range, negative or not, throws. -/
theorem C43_get_out {E : Type} (lib : Lib) (xs : List E) (i : Int) (hi : -(2 : Int) ^ 63 ≤ i ∧ i < 2 ^ 63)
    (h : i < 0 ∨ xs.length ≤ i) (hs : xs.length < 2 ^ 63) : getElem lib xs (.int i) = .throw := by
  have e : ¬ (i % 2 ^ 64).toNat < xs.length := by omega
  simp only [getElem, C43.readIdx_int lib i hi, e, if_false]

/-- So does one that is not an integer. -/
theorem C43_get_bad {E : Type} (lib : Lib) (hl : lib.mm = .lib) (xs : List E) (j : J) (h : ∀ i, j ≠ .int i) :
    getElem lib xs j = .throw := by simp [getElem, readIdx_other lib hl j h]

/-- Setting an element in range changes it, to what reading the value into it gives, and no other. -/
theorem C43_set_partial {E : Type} (lib : Lib) (el : El E) (xs : List E) (i : Nat) (v : J) (x : E) (hx : xs[i]? = some x)
    (hs : xs.length < 2 ^ 63) :
    let r := setElem lib el xs (.int i) v
    (r.1 = .ref i ↔ (el.dec v x).1 = true) ∧ (r.1 = .throw ↔ (el.dec v x).1 = false) ∧
    r.2.length = xs.length ∧ r.2[i]? = some (el.dec v x).2 ∧ ∀ k : Nat, k ≠ i → r.2[k]? = xs[k]? := by
  have hl : i < xs.length := (List.getElem?_eq_some_iff.1 hx).1
  have e : ((i : Int) % 2 ^ 64).toNat = i := by omega
  simp only [setElem, C43.readIdx_int lib i (by omega), e, hx]
  refine ⟨?_, ?_, by simp, by simp [hl], fun k hk => List.getElem?_set_ne (Ne.symm hk)⟩
  · cases (el.dec v x).1 <;> simp
  · cases (el.dec v x).1 <;> simp

/-- With an index out of range, or that is no integer, it throws and changes nothing. -/
theorem C43_set_out {E : Type} (lib : Lib) (hl : lib.mm = .lib) (el : El E) (xs : List E) (j v : J)
    (h : ∀ i, j = .int i → -(2 : Int) ^ 63 ≤ i ∧ i < 2 ^ 63 ∧ (i < 0 ∨ xs.length ≤ i)) (hs : xs.length < 2 ^ 63) :
    setElem lib el xs j v = (.throw, xs) := by
  by_cases hj : ∃ i, j = .int i
  · obtain ⟨i, rfl⟩ := hj
    obtain ⟨h1, h2, h3⟩ := h i rfl
    have e : xs[(i % 2 ^ 64).toNat]? = none := List.getElem?_eq_none (by omega)
    simp only [setElem, C43.readIdx_int lib i ⟨h1, h2⟩, e]
  · simp [setElem, readIdx_other lib hl j fun i e => hj ⟨i, e⟩]

/-- Erasing at an index in range takes out that element and nothing else. -/
theorem C43_erase {E : Type} (lib : Lib) (ty : SeqTy) (ht : ty.ers = true ∧ ty.cst = false) (a c : List E) (x : E)
    (hs : (a ++ x :: c).length < 2 ^ 63) :
    eraseSeq lib ty (a ++ x :: c) (.int a.length) = (.self, a ++ c) := by
  have hl : (a ++ x :: c).length = a.length + c.length + 1 := by simp; omega
  have e : ((a.length : Int) % 2 ^ 64).toNat = a.length := by omega
  simp only [eraseSeq, C43.readIdx_int lib a.length (by omega), e, ht, and_true]
  rw [if_pos (by omega)]
  simp [List.eraseIdx_append_of_length_le]

/-- Out of range, nothing happens. -/
theorem C43_erase_out {E : Type} (lib : Lib) (ty : SeqTy) (xs : List E) (i : Int)
    (hi : -(2 : Int) ^ 63 ≤ i ∧ i < 2 ^ 63) (h : i < 0 ∨ xs.length ≤ i) (hs : xs.length < 2 ^ 63) :
    eraseSeq lib ty xs (.int i) = (.self, xs) := by
  have e : ¬ (i % 2 ^ 64).toNat < xs.length := by omega
  simp only [eraseSeq, C43.readIdx_int lib i hi]
  rw [if_neg fun h => e h.1]

/-! ### Paths -/

private theorem takeWhile_pre (ds t : Str) (h : ∀ c ∈ ds, isDigit c = true) (ht : t.head?.map isDigit ≠ some true) :
    (ds ++ t).takeWhile isDigit = ds := by
  induction ds with
  | nil =>
    cases t with
    | nil => rfl
    | cons c t => simp at ht; simp [ht]
  | cons d ds ih =>
    have := h d (by simp)
    simp [this, ih fun c hc => h c (by simp [hc])]

private theorem digit_facts {c : UInt8} (h : isDigit c = true) :
    isSpace c = false ∧ c ≠ 45 ∧ c ≠ 43 ∧ c ≠ dot := by
  simp only [isDigit, Bool.and_eq_true, decide_eq_true_eq, UInt8.le_iff_toNat_le] at h
  have h48 : (48 : UInt8).toNat = 48 := rfl
  have h57 : (57 : UInt8).toNat = 57 := rfl
  rw [h48, h57] at h
  refine ⟨?_, ?_, ?_, ?_⟩
  · simp only [isSpace, Bool.or_eq_false_iff, beq_eq_false_iff_ne, Bool.and_eq_false_iff, decide_eq_false_iff_not,
      UInt8.le_iff_toNat_le]
    have h13 : (13 : UInt8).toNat = 13 := rfl
    refine ⟨?_, .inr (by omega)⟩
    rintro rfl; exact absurd h.1 (by decide)
  · rintro rfl; exact absurd h.1 (by decide)
  · rintro rfl; exact absurd h.1 (by decide)
  · rintro rfl; exact absurd h.1 (by decide)

private theorem stoi_digits (ds t : Str) (h : ∀ c ∈ ds, isDigit c = true) (hne : ds ≠ [])
    (ht : t.head?.map isDigit ≠ some true) (hv : valD ds < 2 ^ 31) : stoi (ds ++ t) = some (valD ds : Int) := by
  cases ds with
  | nil => exact absurd rfl hne
  | cons d ds =>
    obtain ⟨h1, h2, h3, _⟩ := digit_facts (h d (by simp))
    have hs : signed (d :: ds ++ t) = (false, d :: ds ++ t) := by
      simp only [signed, List.cons_append, List.dropWhile_cons, h1]
      simp only [Bool.false_eq_true, if_false]
      split
      · rename_i e; simp at e; exact absurd e.1 h2
      · rename_i e; simp at e; exact absurd e.1 h3
      · rfl
    simp only [stoi, hs, takeWhile_pre (d :: ds) t h ht]
    simp only [reduceCtorEq, if_false, Bool.false_eq_true]
    rw [if_pos]
    omega

private theorem findIdx_ (l t : Str) (h : ∀ c ∈ l, c ≠ dot) :
    (l ++ t).findIdx? (· == dot) = (t.findIdx? (· == dot)).map (· + l.length) := by
  induction l with
  | nil => simp
  | cons c l ih =>
    have hc := h c (by simp)
    simp only [List.cons_append, List.findIdx?_cons, beq_eq_false_iff_ne.2 hc, Bool.false_eq_true, if_false,
      ih fun d hd => h d (by simp [hd]), List.length_cons]
    cases t.findIdx? (· == dot) <;> simp; omega

/-- What `elemImpl` gives for a path with a decimal index. -/
theorem C43.elemImpl_dec (n : Nat) (k ds t : Str) (hk : ∀ c ∈ k, c ≠ dot) (h : ∀ c ∈ ds, isDigit c = true)
    (hne : ds ≠ []) (ht : t = [] ∨ t.head? = some 46) (hv : valD ds < 2 ^ 31) :
    elemImpl n (dot :: k ++ dot :: (ds ++ t)) =
      if n ≤ valD ds then
        (if b ".@elemNoThrow" <+: (dot :: k ++ dot :: (ds ++ t)) then some none else none)
      else some (some (valD ds, t)) := by
  have hdd : ∀ c ∈ ds, c ≠ dot := fun c hc => (digit_facts (h c hc)).2.2.2
  have h1 : findDotFrom (dot :: k ++ dot :: (ds ++ t)) 1 = some (1 + k.length) := by
    have : (k ++ dot :: (ds ++ t)).findIdx? (· == dot) = some k.length := by
      rw [findIdx_ k _ hk]; simp [List.findIdx?_cons]
    simp [findDotFrom, this]
  have hd : (dot :: k ++ dot :: (ds ++ t)).drop (1 + k.length + 1) = ds ++ t := by
    rw [show dot :: k ++ dot :: (ds ++ t) = (dot :: k ++ [dot]) ++ (ds ++ t) by simp,
      show 1 + k.length + 1 = (dot :: k ++ [dot]).length by simp; omega, List.drop_left]
  have hen : (findDotFrom (dot :: k ++ dot :: (ds ++ t)) (1 + k.length + 1)).getD
      (dot :: k ++ dot :: (ds ++ t)).length = 1 + k.length + 1 + ds.length := by
    simp only [findDotFrom, hd, findIdx_ ds t hdd]
    rcases ht with rfl | ht
    · simp; omega
    · cases t with
      | nil => simp at ht
      | cons c t =>
        simp at ht; subst ht
        have : (46 : UInt8) == dot := rfl
        simp [List.findIdx?_cons, this]
  have hhead : t.head?.map isDigit ≠ some true := by
    rcases ht with rfl | ht
    · simp
    · rw [ht]; decide
  have hst : stoi ((ds ++ t).take (1 + k.length + 1 + ds.length)) = some (valD ds : Int) := by
    rw [List.take_append, List.take_of_length_le (by omega)]
    refine stoi_digits ds _ h hne ?_ hv
    rcases ht with rfl | ht
    · simp
    · cases t with
      | nil => simp at ht
      | cons c t =>
        have : 1 + k.length + 1 + ds.length - ds.length = 1 + k.length + 1 := by omega
        rw [this]
        have e : (List.take (1 + k.length + 1) (c :: t)).head? = some c := by
          rw [show 1 + k.length + 1 = (1 + k.length) + 1 from rfl]; rfl
        simp at ht
        rw [e, ht]; decide
  have hm : ((valD ds : Int) % 2 ^ 64).toNat = valD ds := by omega
  have hrest : (dot :: k ++ dot :: (ds ++ t)).drop (1 + k.length + 1 + ds.length) = t := by
    rw [← List.drop_drop, hd, List.drop_left]
  simp only [elemImpl, h1, hd, hen, hst, hm, hrest]

/-- `.@elem.` and a decimal index in range reach that element, the rest of the path going to it. -/
theorem C43_path_partial {E : Type} (lib : Lib) (tr : Nat → Option Nat) (el : El E) (ty : SeqTy) (args : J) (xs : List E)
    (ds t : Str) (h : ∀ c ∈ ds, isDigit c = true) (hne : ds ≠ []) (ht : t.head? = some 46)
    (hv : valD ds < 2 ^ 31) (hx : valD ds < xs.length) :
    seqProcess lib tr el ty (b ".@elem." ++ ds ++ t) args xs = (.path (valD ds) t, xs) := by
  have e : b ".@elem." ++ ds ++ t = dot :: b "@elem" ++ dot :: (ds ++ t) := by
    rw [List.append_assoc]; rfl
  have hp : b ".@elem" <+: b ".@elem." ++ ds ++ t := by
    rw [List.append_assoc]
    exact List.IsPrefix.trans ⟨[46], rfl⟩ (List.prefix_append ..)
  have hi := C43.elemImpl_dec xs.length (b "@elem") ds t (by decide) h hne (.inr ht) hv
  rw [← e, if_neg (by omega)] at hi
  have htn : t ≠ [] := by rintro rfl; simp at ht
  simp only [seqProcess, if_pos hp, hi, if_neg htn]

/-- At the end of the path, without argument the element is given; with one it, and no other, becomes what
converting the argument gives. -/
theorem C43_path_end {E : Type} (lib : Lib) (tr : Nat → Option Nat) (el : El E) (ty : SeqTy) (hc : ty.cst = false)
    (xs : List E) (ds : Str) (h : ∀ c ∈ ds, isDigit c = true) (hne : ds ≠ []) (hv : valD ds < 2 ^ 31) (x : E)
    (hx : xs[valD ds]? = some x) :
    seqProcess lib tr el ty (b ".@elem." ++ ds) .null xs = (.ref (valD ds), xs) ∧
    ∀ j, let r := seqProcess lib tr el ty (b ".@elem." ++ ds) (.arr [j]) xs
      (r.1 = .ref (valD ds) ↔ (el.conv j x).1 = true) ∧ (r.1 = .throw ↔ (el.conv j x).1 = false) ∧
      r.2.length = xs.length ∧ r.2[valD ds]? = some (el.conv j x).2 ∧
      ∀ k : Nat, k ≠ valD ds → r.2[k]? = xs[k]? := by
  have e : b ".@elem." ++ ds = dot :: b "@elem" ++ dot :: (ds ++ []) := by
    rw [List.append_nil]; rfl
  have hp : b ".@elem" <+: b ".@elem." ++ ds :=
    List.IsPrefix.trans ⟨[46], rfl⟩ (List.prefix_append ..)
  have hl : valD ds < xs.length := (List.getElem?_eq_some_iff.1 hx).1
  have hi := C43.elemImpl_dec xs.length (b "@elem") ds [] (by decide) h hne (.inl rfl) hv
  rw [← e, if_neg (by omega)] at hi
  refine ⟨?_, fun j => ?_⟩
  · simp only [seqProcess, if_pos hp, hi, if_true, hx, assignArg]
    have : xs.set (valD ds) x = xs := by
      apply List.ext_getElem?
      intro k
      by_cases hk : k = valD ds
      · subst hk; rw [List.getElem?_set_self hl, hx]
      · rw [List.getElem?_set_ne (Ne.symm hk)]
    simp [this]
  · simp only [seqProcess, if_pos hp, hi, if_true, hx, assignArg, hc, Bool.false_eq_true, if_false]
    refine ⟨?_, ?_, by simp, by simp [hl], fun k hk => List.getElem?_set_ne (Ne.symm hk)⟩
    · cases (el.conv j x).1 <;> simp
    · cases (el.conv j x).1 <;> simp

/-- Out of range it throws, and nothing changes. -/
theorem C43_path_out {E : Type} (lib : Lib) (tr : Nat → Option Nat) (el : El E) (ty : SeqTy) (args : J) (xs : List E)
    (ds t : Str) (h : ∀ c ∈ ds, isDigit c = true) (hne : ds ≠ []) (ht : t = [] ∨ t.head? = some 46)
    (hv : valD ds < 2 ^ 31) (hx : xs.length ≤ valD ds) :
    seqProcess lib tr el ty (b ".@elem." ++ ds ++ t) args xs = (.throw, xs) := by
  have e : b ".@elem." ++ ds ++ t = dot :: b "@elem" ++ dot :: (ds ++ t) := by
    rw [List.append_assoc]; rfl
  have hp : b ".@elem" <+: b ".@elem." ++ ds ++ t := by
    rw [List.append_assoc]
    exact List.IsPrefix.trans ⟨[46], rfl⟩ (List.prefix_append ..)
  have hnp : ¬ b ".@elemNoThrow" <+: b ".@elem." ++ ds ++ t := by
    intro hp
    rw [List.append_assoc, show b ".@elemNoThrow" = b ".@elem" ++ (78 :: b "oThrow") from rfl,
      show b ".@elem." ++ (ds ++ t) = b ".@elem" ++ (46 :: (ds ++ t)) from rfl, List.prefix_append_right_inj,
      List.cons_prefix_cons] at hp
    exact absurd hp.1 (by decide)
  have hi := C43.elemImpl_dec xs.length (b "@elem") ds t (by decide) h hne ht hv
  rw [← e, if_pos hx, if_neg hnp] at hi
  simp only [seqProcess, if_pos hp, hi]

/-- Inserting appends, leaving the elements there are. -/
theorem C43_insert {E : Type} (lib : Lib) (tr : Nat → Option Nat) (el : El E) (ty : SeqTy)
    (hi : ty.ins = true ∧ ty.cst = false) (args : J) (xs : List E) :
    ((el.conv args el.dflt).1 = true →
      seqProcess lib tr el ty (b ".@insert") args xs = (.self, xs ++ [(el.conv args el.dflt).2])) ∧
    ((el.conv args el.dflt).1 = false → seqProcess lib tr el ty (b ".@insert") args xs = (.throw, xs)) := by
  have h1 : ¬ b ".@elem" <+: b ".@insert" := by decide
  have h2 : b ".@insert" <+: b ".@insert" := List.prefix_refl _
  simp only [seqProcess, if_neg h1, if_pos h2, hi, and_self, if_true]
  refine ⟨fun h => by simp [h], fun h => by simp [h]⟩

private abbrev exLib : Lib := ⟨.lib, 0, fun i => i.toNat, id, id⟩
private abbrev exEl : El Nat := ⟨0, fun j x => match j with | .int i => (true, i.toNat) | _ => (false, x),
  fun j x => match j with | .int i => (true, i.toNat) | _ => (false, x)⟩
private abbrev vec : SeqTy := ⟨true, true, false⟩

example : seqProcess exLib some exEl vec (b ".@elem." ++ b "12" ++ b ".x.y") .null (List.replicate 13 0) =
    (.path 12 (b ".x.y"), List.replicate 13 0) :=
  C43_path_partial exLib some exEl vec .null (List.replicate 13 0) (b "12") (b ".x.y") (by decide) (by decide) rfl
    (by decide) (by decide)
example : getElem exLib [5, 6, 7] (.int 2) = .ref 2 := C43_get exLib [5, 6, 7] 2 (by decide) (by decide)
example : setElem exLib exEl [5, 6, 7] (.int (-1)) (.int 9) = (.throw, [5, 6, 7]) :=
  C43_set_out exLib rfl exEl [5, 6, 7] (.int (-1)) (.int 9) (by intro i h; cases h; decide) (by decide)
example : eraseSeq exLib vec [5, 6, 7] (.int 1) = (.self, [5, 7]) :=
  C43_erase exLib vec ⟨rfl, rfl⟩ [5] [7] 6 (by decide)

/-- The documented way to erase, with the index in the path, erases the first element whatever the index. -/
theorem C43_fails_erase : seqProcess exLib some exEl vec (b ".@erase.2") .null [5, 6, 7] = (.self, [6, 7]) ∧
    seqProcess exLib some exEl vec (b ".@erase.9") .null [5, 6, 7] = (.self, [6, 7]) := by decide
/-- Out of range, `@elemNoThrow` gives nothing instead of the documented default element. -/
theorem C43_fails_noThrow : seqProcess exLib some exEl vec (b ".@elemNoThrow.3") .null [5, 6, 7] =
    (.void, [5, 6, 7]) := by decide
/-- What is no index may address an element: text after the digits is ignored, and so is text after `@elem`. -/
theorem C43_fails_index : seqProcess exLib some exEl vec (b ".@elem.1abc") .null [5, 6, 7] = (.ref 1, [5, 6, 7]) ∧
    seqProcess exLib some exEl vec (b ".@elements.+1") .null [5, 6, 7] = (.ref 1, [5, 6, 7]) := by decide
/-- Erasing from a const sequence says nothing and does nothing. -/
theorem C43_fails_const : eraseSeq exLib ⟨true, true, true⟩ [5, 6, 7] (.int 1) = (.self, [5, 6, 7]) := by decide
/-- A sequence given several arguments is not assigned them, nor is there an error. -/
theorem C43_fails_assign : seqProcess exLib some exEl vec [] (.arr [.int 1, .int 2]) [5, 6, 7] =
    (.self, [5, 6, 7]) ∧
    seqProcess exLib some exEl vec [] (.arr [.arr [.int 1, .int 2]]) [5, 6, 7] = (.self, [1, 2]) := by decide

/-- `.@size` gives the number of elements and changes nothing. -/
theorem C43_size {E : Type} (lib : Lib) (tr : Nat → Option Nat) (el : El E) (ty : SeqTy) (args : J) (xs : List E) :
    seqProcess lib tr el ty (b ".@size") args xs = (.size xs.length, xs) := by
  have h1 : ¬ b ".@elem" <+: b ".@size" := by decide
  have h2 : ¬ b ".@insert" <+: b ".@size" := by decide
  have h3 : ¬ b ".@erase" <+: b ".@size" := by decide
  have h4 : b ".@size" <+: b ".@size" := List.prefix_refl _
  have h5 : ¬ b ".@size" = [] := by decide
  simp only [seqProcess, if_neg h1, if_neg h2, if_neg h3, seqRest, if_neg h5, if_pos h4]

/-- Erasing with the index as argument, a number or an array beginning with one, takes out that element. -/
theorem C43_erase_argument {E : Type} (lib : Lib) (tr : Nat → Option Nat) (el : El E) (ty : SeqTy)
    (ht : ty.ers = true ∧ ty.cst = false) (a c : List E) (x : E) (js : List J) (hs : (a ++ x :: c).length < 2 ^ 63) :
    seqProcess lib tr el ty (b ".@erase") (.int a.length) (a ++ x :: c) = (.self, a ++ c) ∧
    seqProcess lib tr el ty (b ".@erase") (.arr (.int a.length :: js)) (a ++ x :: c) = (.self, a ++ c) := by
  have h1 : ¬ b ".@elem" <+: b ".@erase" := by decide
  have h2 : ¬ b ".@insert" <+: b ".@erase" := by decide
  have h3 : b ".@erase" <+: b ".@erase" := List.prefix_refl _
  have hl : (a ++ x :: c).length = a.length + c.length + 1 := by simp; omega
  have e : ((a.length : Int) % 2 ^ 64).toNat = a.length := by omega
  have e2 : (EnumKeys.cast size_t (EnumKeys.cast ⟨.w64, true⟩ (a.length : Int))).toNat = a.length := by
    simp only [size_t, EnumKeys.cast, Width.modulus]
    simp
    omega
  have hc1 : convIdx lib tr (.int a.length) = .ok a.length := by rw [convIdx, e2]
  have hc2 : convIdx lib tr (.arr (.int a.length :: js)) = .ok a.length := by
    rw [convIdx, C43.readIdx_int lib a.length (by omega), e]
  have he : (a ++ x :: c).eraseIdx a.length = a ++ c := by simp [List.eraseIdx_append_of_length_le]
  simp only [seqProcess, if_neg h1, if_neg h2, if_pos h3, ht, and_self, if_true, hc1, hc2, he]
  rw [if_pos (by omega)]

/-- An argument that is no index does not make erasing fail: the first element is taken out. -/
theorem C43_erase_default_fails {E : Type} (lib : Lib) (hm : lib.mm.isPack = true) (tr : Nat → Option Nat) (el : El E)
    (ty : SeqTy) (ht : ty.ers = true ∧ ty.cst = false) (x : E) (xs : List E) (m : List (Str × J)) (s : Str) (js : List J) :
    ∀ args ∈ [J.null, .arr [], .obj m, .arr (.str s :: js)],
      seqProcess lib tr el ty (b ".@erase") args (x :: xs) = (.self, xs) := by
  have h1 : ¬ b ".@elem" <+: b ".@erase" := by decide
  have h2 : ¬ b ".@insert" <+: b ".@erase" := by decide
  have h3 : b ".@erase" <+: b ".@erase" := List.prefix_refl _
  intro args ha
  have hc : convIdx lib tr args = .ok 0 := by
    simp only [List.mem_cons, List.not_mem_nil, or_false] at ha
    rcases ha with rfl | rfl | rfl | rfl
    · rfl
    · rfl
    · simp [convIdx, getInt, hm]
    · simp [convIdx, readIdx, getInt, hm]
  simp only [seqProcess, if_neg h1, if_neg h2, if_pos h3, ht, and_self, if_true, hc]
  simp

example : seqProcess ⟨.packErr, 0, fun i => i.toNat, id, id⟩ some exEl vec (b ".@erase") (.arr [.str (b "x")]) [5, 6, 7] =
    (.self, [6, 7]) :=
  C43_erase_default_fails _ rfl some exEl vec ⟨rfl, rfl⟩ 5 [6, 7] [] (b "x") [] _ (by simp)

/-- The same request to a sequence that is const or of fixed size throws, as does inserting; nothing changes. -/
theorem C43_fixed {E : Type} (lib : Lib) (tr : Nat → Option Nat) (el : El E) (ty : SeqTy) (args : J) (xs : List E) :
    (ty.ers = false ∨ ty.cst = true → seqProcess lib tr el ty (b ".@erase") args xs = (.throw, xs)) ∧
    (ty.ins = false ∨ ty.cst = true → seqProcess lib tr el ty (b ".@insert") args xs = (.throw, xs)) := by
  have h1 : ¬ b ".@elem" <+: b ".@erase" := by decide
  have h2 : ¬ b ".@insert" <+: b ".@erase" := by decide
  have h3 : b ".@erase" <+: b ".@erase" := List.prefix_refl _
  have h4 : ¬ b ".@elem" <+: b ".@insert" := by decide
  have h5 : b ".@insert" <+: b ".@insert" := List.prefix_refl _
  constructor
  · intro h
    simp only [seqProcess, if_neg h1, if_neg h2, if_pos h3]
    rw [if_neg (by rcases h with h | h <;> simp [h])]
  · intro h
    simp only [seqProcess, if_neg h4, if_pos h5]
    rw [if_neg (by rcases h with h | h <;> simp [h])]

/-- Assigning to an element of a const sequence through a path throws and changes nothing; reading it is
possible, also with an empty argument list. -/
theorem C43_const_path {E : Type} (lib : Lib) (tr : Nat → Option Nat) (el : El E) (ty : SeqTy) (hc : ty.cst = true)
    (xs : List E) (ds : Str) (h : ∀ c ∈ ds, isDigit c = true) (hne : ds ≠ []) (hv : valD ds < 2 ^ 31)
    (hx : valD ds < xs.length) (j : J) (js : List J) :
    seqProcess lib tr el ty (b ".@elem." ++ ds) (.arr (j :: js)) xs = (.throw, xs) ∧
    seqProcess lib tr el ty (b ".@elem." ++ ds) (.arr []) xs = (.ref (valD ds), xs) := by
  have e : b ".@elem." ++ ds = dot :: b "@elem" ++ dot :: (ds ++ []) := by
    rw [List.append_nil]; rfl
  have hp : b ".@elem" <+: b ".@elem." ++ ds :=
    List.IsPrefix.trans ⟨[46], rfl⟩ (List.prefix_append ..)
  have hi := C43.elemImpl_dec xs.length (b "@elem") ds [] (by decide) h hne (.inl rfl) hv
  rw [← e, if_neg (by omega)] at hi
  have hg : xs[valD ds]? = some xs[valD ds] := List.getElem?_eq_getElem hx
  constructor <;>
    simp only [seqProcess, if_pos hp, hi, if_true, hg, assignArg, hc, constEl, List.set_getElem_self,
      Bool.false_eq_true, if_false]

/-- Assigning a sequence element by element stops with an exception at one that cannot be read: the ones
before it have been assigned, it has what reading it left, those after are as they were. -/
theorem C43_assign_stops {E : Type} (lib : Lib) (tr : Nat → Option Nat) (el : El E) (ty : SeqTy) (hc : ty.cst = false)
    (hi : ty.ins = false) (js : List J) (j : J) (js' : List J) (xs : List E) (x : E) (xs' : List E)
    (hl : js.length = xs.length) (hb : (el.dec j x).1 = false)
    (hg : ∀ (i : Nat) (k : J) (y : E), js[i]? = some k → xs[i]? = some y → (el.dec k y).1 = true) :
    seqProcess lib tr el ty [] (.arr [.arr (js ++ j :: js')]) (xs ++ x :: xs') =
      (.throw, (js.zip xs).map (fun p => (el.dec p.1 p.2).2) ++ (el.dec j x).2 :: xs') := by
  have h1 : ¬ b ".@elem" <+: ([] : Str) := by decide
  have h2 : ¬ b ".@insert" <+: ([] : Str) := by decide
  have h3 : ¬ b ".@erase" <+: ([] : Str) := by decide
  have key : ∀ (js : List J) (xs : List E), js.length = xs.length →
      (∀ (i : Nat) (k : J) (y : E), js[i]? = some k → xs[i]? = some y → (el.dec k y).1 = true) →
      decAll el (js ++ j :: js') (xs ++ x :: xs') =
        (false, (js.zip xs).map (fun p => (el.dec p.1 p.2).2) ++ (el.dec j x).2 :: xs') := by
    intro js
    induction js with
    | nil =>
      intro xs hl _
      have : xs = [] := List.length_eq_zero_iff.1 hl.symm
      subst this
      simp [decAll, hb]
    | cons k js ih =>
      intro xs hl hg
      cases xs with
      | nil => simp at hl
      | cons y xs =>
        have := ih xs (by simpa using hl) fun i k y h1 h2 => hg (i + 1) k y h1 h2
        simp [decAll, hg 0 k y rfl rfl, this]
  simp only [seqProcess, if_neg h1, if_neg h2, if_neg h3, seqRest, if_true, hc, Bool.false_eq_true, if_false, convSeq, hi,
    key js xs hl hg]

/-- An index of 2^31 or more in a path throws, also when there is such an element. -/
theorem C43_fails_large {E : Type} (lib : Lib) (tr : Nat → Option Nat) (el : El E) (ty : SeqTy) (args : J) (xs : List E)
    (ds : Str) (h : ∀ c ∈ ds, isDigit c = true) (hne : ds ≠ []) (hv : 2 ^ 31 ≤ valD ds) :
    seqProcess lib tr el ty (b ".@elem." ++ ds) args xs = (.throw, xs) := by
  have hp : b ".@elem" <+: b ".@elem." ++ ds :=
    List.IsPrefix.trans ⟨[46], rfl⟩ (List.prefix_append ..)
  have h1 : findDotFrom (b ".@elem." ++ ds) 1 = some 6 := rfl
  have hd : (b ".@elem." ++ ds).drop 7 = ds := List.drop_left (l₁ := b ".@elem.")
  have hdd : ∀ c ∈ ds, c ≠ dot := fun c hc => (digit_facts (h c hc)).2.2.2
  have h2 : findDotFrom (b ".@elem." ++ ds) 7 = none := by
    have := findIdx_ ds [] hdd
    rw [List.append_nil] at this
    simp [findDotFrom, hd, this]
  have hlen : ds.length ≤ (b ".@elem." ++ ds).length := by simp
  have hs : stoi ds = none := by
    cases hds : ds with
    | nil => exact absurd hds hne
    | cons d r =>
      subst hds
      obtain ⟨a1, a2, a3, _⟩ := digit_facts (h d (by simp))
      have hs : signed (d :: r) = (false, d :: r) := by
        simp only [signed, List.dropWhile_cons, a1, Bool.false_eq_true, if_false]
        split
        · rename_i e; simp at e; exact absurd e.1 a2
        · rename_i e; simp at e; exact absurd e.1 a3
        · rfl
      have ht := takeWhile_pre (d :: r) [] h (by simp)
      rw [List.append_nil] at ht
      simp only [stoi, hs, ht, reduceCtorEq, if_false, Bool.false_eq_true]
      rw [if_neg (by omega)]
  have hi : elemImpl xs.length (b ".@elem." ++ ds) = none := by
    simp only [elemImpl, h1, h2, hd, Option.getD_none, List.take_of_length_le hlen, hs]
  simp only [seqProcess, if_pos hp, hi]

example : valD (b "2147483648") = 2 ^ 31 := by decide

/-- With a JSON library whose errors count as `json_pack_error`, erasing at something that is no number reads an
uninitialised index. -/
theorem C43_fails_uninitialised {E : Type} (lib : Lib) (hl : lib.mm = .packErr) (ty : SeqTy) (xs : List E) (s : Str) :
    eraseSeq lib ty xs (.str s) = (.ub, xs) ∧ getElem lib xs (.str s) = .ub := by
  simp [eraseSeq, getElem, readIdx, getInt, hl, Err.isPack]

end Verif.Rest
