import Verif.RestMap
/-
C62: associative containers through the REST interface.
-/
namespace Verif.Rest
open OMap
open Verif.Json (J R dot)

/-- Text of a path that names a key without being JSON: not empty, no dot, no JSON bracket or quote
first. -/
structure C62.Plain (w : Str) : Prop where
  ne : w ≠ []
  dot : ∀ c ∈ w, c ≠ 46
  lead : ∀ c, w.head? = some c → c ≠ 34 ∧ c ≠ 39 ∧ c ≠ 123 ∧ c ≠ 91 ∧ c ≠ 0

open C62

theorem C62.pathKey_plain {K : Type} (ky : Key K) (w t : Str) (hw : Plain w) (ht : t = [] ∨ t.head? = some 46) :
    pathKey ky (b ".@elem." ++ w ++ t) = some ((ky.raw w).map fun k => (k, t)) := by
  have h1 : findDotFrom (b ".@elem." ++ w ++ t) 1 = some 6 := by
    have : (b ".@elem." ++ w ++ t).drop 1 = b "@elem." ++ (w ++ t) := by
      rw [List.append_assoc]; rfl
    rw [findDotFrom, this]
    rfl
  have h2 : (b ".@elem." ++ w ++ t).drop 7 = w ++ t := by
    rw [List.append_assoc]; rfl
  have h3 : jsonLead (w ++ t) = false := by
    cases w with
    | nil => exact absurd rfl hw.ne
    | cons c w =>
      obtain ⟨a1, a2, a3, a4, a5⟩ := hw.lead c rfl
      simp [jsonLead, a1, a2, a3, a4, a5]
  have h4 : (w ++ t).takeWhile (· != dot) = w := by
    have key : ∀ w : Str, (∀ c ∈ w, c ≠ 46) → (w ++ t).takeWhile (· != dot) = w := by
      intro w
      induction w with
      | nil =>
        intro _
        rcases ht with rfl | ht
        · rfl
        · cases t with
          | nil => rfl
          | cons c t => simp at ht; subst ht; rfl
      | cons c w ih =>
        intro h
        have h0 := h c (by simp)
        have : (c != dot) = true := by simpa [dot] using h0
        simp [this, ih fun d hd => h d (by simp [hd])]
    exact key w hw.dot
  simp only [pathKey, h1, h2, h3, Bool.false_eq_true, if_false, h4, List.drop_left]

/-- Setting the element of a key: afterwards the key, and no other, has what converting the argument into
the element there was (or a default one) gives. -/
theorem C62_set_partial {K V : Type} [DecidableEq K] (ky : Key K) (ho : StrictOrd ky.lt) (el : El V) (m : List (K × V))
    (w : Str) (hw : Plain w) (k : K) (hk : ky.raw w = .ok k) (j : J) (hj : j ≠ .null) (v : V)
    (hv : el.conv j ((mfind ky.lt k m).getD el.dflt) = (true, v)) :
    let r := mapElem ky el m (b ".@elem." ++ w) j
    r.1 = .value v ∧ ∀ q, mfind ky.lt q r.2 = if q = k then some v else mfind ky.lt q m := by
  have h := pathKey_plain ky w [] hw (.inl rfl)
  rw [List.append_nil, hk] at h
  simp only [R.map] at h
  have hf : (mfind ky.lt k (minsert ky.lt k el.dflt m)).getD el.dflt = (mfind ky.lt k m).getD el.dflt := by
    rw [mfind_minsert ho, if_pos rfl]; simp
  have ha : assignMap ky el m k j = (true, mput ky.lt k v (minsert ky.lt k el.dflt m)) := by
    simp only [assignMap, hf, hv]
  have hl : ∀ q, mfind ky.lt q (mput ky.lt k v (minsert ky.lt k el.dflt m)) =
      if q = k then some v else mfind ky.lt q m := by
    intro q
    rw [mfind_mput ho, mfind_minsert ho]
    by_cases hq : q = k <;> simp [hq]
  have hn : (match j with | .null => true | _ => false) = false := by
    cases j with
    | null => exact absurd rfl hj
    | _ => rfl
  simp only [mapElem, h, hn, and_self, if_true, ha, hl k]
  refine ⟨by simp, fun q => by simp [hl q]⟩

/-- Reading does not change anything, and gives the element of the key, or throws if there is none. -/
theorem C62_get_partial {K V : Type} (ky : Key K) (el : El V) (m : List (K × V)) (w : Str) (hw : Plain w)
    (k : K) (hk : ky.raw w = .ok k) :
    mapElem ky el m (b ".@elem." ++ w) .null =
      (match mfind ky.lt k m with | some v => .value v | none => .throw, m) := by
  have h := pathKey_plain ky w [] hw (.inl rfl)
  rw [List.append_nil, hk] at h
  simp only [R.map] at h
  have hnp : ¬ b ".@elemNoThrow" <+: b ".@elem." ++ w := by
    intro hp
    rw [show b ".@elemNoThrow" = b ".@elem" ++ (78 :: b "oThrow") from rfl,
      show b ".@elem." ++ w = b ".@elem" ++ (46 :: w) from rfl, List.prefix_append_right_inj,
      List.cons_prefix_cons] at hp
    exact absurd hp.1 (by decide)
  simp only [mapElem, h, Bool.true_eq_false, and_false, if_false]
  cases mfind ky.lt k m with
  | none => simp [hnp]
  | some v => simp

/-- Inserting a pair: a key there is already is refused, and nothing changes; otherwise it, and no other,
gets the value. -/
theorem C62_insert {K V : Type} [DecidableEq K] (ky : Key K) (ho : StrictOrd ky.lt) (m : List (K × V)) (k : K) (v : V) :
    ((mfind ky.lt k m).isSome = true → mapInsert ky m k v = (false, m)) ∧
    (mfind ky.lt k m = none → (mapInsert ky m k v).1 = true ∧
      ∀ q, mfind ky.lt q (mapInsert ky m k v).2 = if q = k then some v else mfind ky.lt q m) := by
  constructor
  · intro h
    cases hf : mfind ky.lt k m with
    | none => simp [hf] at h
    | some x => simp [mapInsert, hf]
  · intro h
    simp only [mapInsert, h, true_and]
    intro q
    rw [mfind_minsert ho]
    by_cases hq : q = k
    · subst hq; simp [h]
    · simp [hq]

/-- Erasing a key takes out that and no other; a key that is not there is no error. -/
theorem C62_erase {K V : Type} [DecidableEq K] (ky : Key K) (ho : StrictOrd ky.lt) (m : List (K × V))
    (hm : Sorted ky.lt m) (j : J) (k : K) (hk : ky.conv j = .ok k) :
    (mapErase ky m j).1 = .self ∧
    ∀ q, mfind ky.lt q (mapErase ky m j).2 = if q = k then none else mfind ky.lt q m := by
  simp only [mapErase, hk, true_and]
  exact fun q => mfind_merase ho k m hm q

/-- `setElem` changes only the element of the key. -/
theorem C62_setElem {K V : Type} [DecidableEq K] (ky : Key K) (ho : StrictOrd ky.lt) (el : El V) (m : List (K × V))
    (j v : J) (k : K) (hk : ky.read j = .ok k) :
    (mapSet ky el m j v).1 = (el.dec v ((mfind ky.lt k m).getD el.dflt)).1 ∧
    ∀ q, mfind ky.lt q (mapSet ky el m j v).2 =
      if q = k then some (el.dec v ((mfind ky.lt k m).getD el.dflt)).2 else mfind ky.lt q m := by
  have hf : (mfind ky.lt k (minsert ky.lt k el.dflt m)).getD el.dflt = (mfind ky.lt k m).getD el.dflt := by
    rw [mfind_minsert ho, if_pos rfl]; simp
  simp only [mapSet, hk, hf, true_and]
  intro q
  rw [mfind_mput ho, mfind_minsert ho]
  by_cases hq : q = k <;> simp [hq]

private abbrev exKey : Key Str :=
  ⟨strLt, fun j => match j with | .str s => .ok s | _ => .throw .lib,
   fun j => match j with | .str s => .ok s | _ => .throw .lib, .ok, fun _ => .throw .lib⟩
private abbrev exEl : El Nat := ⟨0, fun j x => match j with | .int i => (true, i.toNat) | _ => (false, x),
  fun j x => match j with | .int i => (true, i.toNat) | _ => (false, x)⟩

private theorem plain_k : Plain (b "k") :=
  ⟨by decide, by decide, by intro c hc; simp only [show (b "k").head? = some 107 from rfl, Option.some.injEq] at hc; subst hc; decide⟩

example : mapElem exKey exEl [(b "k", 1)] (b ".@elem." ++ b "k") .null = (.value 1, [(b "k", 1)]) :=
  C62_get_partial exKey exEl [(b "k", 1)] (b "k") plain_k (b "k") rfl
example : (mapElem exKey exEl [(b "a", 1)] (b ".@elem." ++ b "k") (.int 5)).1 = .value 5 :=
  (C62_set_partial exKey strOrd exEl [(b "a", 1)] (b "k") plain_k (b "k") rfl (.int 5) (by simp) 5 rfl).1
example : (mapInsert exKey [(b "k", 1)] (b "k") 2) = (false, [(b "k", 1)]) :=
  (C62_insert exKey strOrd [(b "k", 1)] (b "k") 2).1 (by decide)
example : (mapErase exKey [(b "a", 1), (b "k", 2)] (.str (b "a"))).2 = [(b "k", 2)] := by decide

/-- Setting a member of an element through the path is done on a copy: the map stays as it was, whatever the
argument. -/
theorem C62_fails_member (args : J) : mapElem exKey exEl [(b "k", 1)] (b ".@elem.k.x") args =
    (.copy 1 (b ".x"), [(b "k", 1)]) := by
  have h : pathKey exKey (b ".@elem.k.x") = some (.ok (b "k", b ".x")) := by
    have := pathKey_plain exKey (b "k") (b ".x") plain_k (.inr rfl)
    exact this
  have h2 : ¬ b ".x" = [] := by decide
  simp only [mapElem, h, h2, false_and, if_false]
  decide

/-- In general, after any longer path the map is as before. -/
theorem C62_fails_path {K V : Type} (ky : Key K) (el : El V) (m : List (K × V)) (w t : Str) (hw : Plain w)
    (ht : t.head? = some 46) (args : J) : (mapElem ky el m (b ".@elem." ++ w ++ t) args).2 = m := by
  have h := pathKey_plain ky w t hw (.inr ht)
  have htn : t ≠ [] := by rintro rfl; simp at ht
  cases hk : ky.raw w with
  | ok k =>
    rw [hk] at h
    simp only [R.map] at h
    simp only [mapElem, h, htn, false_and, if_false]
    simp only [Bool.true_eq_false, if_false]
    split
    · split <;> rfl
    · rfl
  | throw e => rw [hk] at h; simp only [mapElem, h, R.map]
  | ub => rw [hk] at h; simp only [mapElem, h, R.map]

/-- An argument that cannot be converted leaves a default element behind. -/
theorem C62_fails_bad : mapElem exKey exEl [] (b ".@elem.k") (.str []) = (.throw, [(b "k", 0)]) := by decide

/-- `getElem` of a key that is not there adds it. -/
theorem C62_fails_get : (mapGet exKey exEl [] (.str (b "k"))).2 = [(b "k", 0)] := by decide

/-- A key in the path that begins like JSON (a quote, apostrophe, brace or bracket) is read as JSON, and the path
continues where the JSON value ends; nothing is changed without an argument. -/
theorem C62_quoted {K V : Type} (ky : Key K) (el : El V) (m : List (K × V)) (c : UInt8) (w t : Str)
    (hc : c = 34 ∨ c = 39 ∨ c = 123 ∨ c = 91) (k : K) (hk : ky.json (c :: w) = .ok (k, t)) :
    mapElem ky el m (b ".@elem." ++ c :: w) .null =
      (match mfind ky.lt k m with | some v => (if t = [] then .value v else .copy v t) | none => .throw, m) := by
  have h1 : findDotFrom (b ".@elem." ++ c :: w) 1 = some 6 := rfl
  have h2 : (b ".@elem." ++ c :: w).drop 7 = c :: w := rfl
  have h3 : jsonLead (c :: w) = true := by rcases hc with rfl | rfl | rfl | rfl <;> rfl
  have hnp : ¬ b ".@elemNoThrow" <+: b ".@elem." ++ c :: w := by
    intro hp
    rw [show b ".@elemNoThrow" = b ".@elem" ++ (78 :: b "oThrow") from rfl,
      show b ".@elem." ++ c :: w = b ".@elem" ++ (46 :: c :: w) from rfl, List.prefix_append_right_inj,
      List.cons_prefix_cons] at hp
    exact absurd hp.1 (by decide)
  simp only [mapElem, pathKey, h1, h2, h3, if_true, hk, Bool.true_eq_false, and_false, if_false]
  cases mfind ky.lt k m with
  | none => simp [hnp]
  | some v => by_cases ht : t = [] <;> simp [ht]

/-- A key that cannot be read, of either kind, throws and changes nothing. -/
theorem C62_bad_key {K V : Type} (ky : Key K) (el : El V) (m : List (K × V)) (w : Str) (hw : Plain w) (e : Json.Err)
    (hk : ky.raw w = .throw e) (args : J) : mapElem ky el m (b ".@elem." ++ w) args = (.throw, m) := by
  have h := pathKey_plain ky w [] hw (.inl rfl)
  rw [List.append_nil, hk] at h
  simp only [mapElem, h, R.map]

end Verif.Rest
