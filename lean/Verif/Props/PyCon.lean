import Verif.PyCon
import Verif.Props.RestObj
/-
C91: containers behind the wrappers of a Python module.
-/
namespace Verif.PyCon
open Verif.OMap
open Verif.Json (J R Oc Lib)
open Verif.Rest
open Verif.Rest.C88 (Fits)

/-! ### What is expected -/

/-- An answer: a number, a truth value, the value of an element, None, an exception, keys in any order. -/
inductive C91.Ans (K : Type)
  | num (n : Nat)
  | truth (x : Bool)
  | elem (v : VV)
  | nothing
  | exception
  | keys (l : List K)

open C91 (Ans)

/-- The answer as a result. -/
inductive C91.Says {K : Type} (lib : Lib) (shk : K → J) : Ans K → Res → Prop
  | num (n) : C91.Says lib shk (.num n) (.value (.int n))
  | truth (x) : C91.Says lib shk (.truth x) (.value (.bool x))
  | elem (v) : C91.Says lib shk (.elem v) (.value (showVar lib v))
  | nothing : C91.Says lib shk .nothing (.value .null)
  | exception : C91.Says lib shk .exception .error
  | keys (l l' : List K) : l.Perm l' → C91.Says lib shk (.keys l) (.value (.arr (l'.map shk)))

/-- Results for answers, one by one. -/
inductive C91.All {K : Type} (lib : Lib) (shk : K → J) : List (Ans K) → List Res → Prop
  | nil : C91.All lib shk [] []
  | cons {a r as rs} : C91.Says lib shk a r → C91.All lib shk as rs → C91.All lib shk (a :: as) (r :: rs)

open C91 (Says All)

/-- Statements about a list. -/
inductive C91.LOp
  | len
  | get (i : Nat)
  | set (i : Nat) (j : J) (v : VV)
  | append (j : J) (v : VV)
  | remove (i : Nat)

/-- How they are written with a wrapper. -/
def C91.LOp.op : C91.LOp → Op
  | .len => .len
  | .get i => .get (.int i)
  | .set i j _ => .set (.int i) j
  | .append j _ => .insert j
  | .remove i => .erase (.int i)

/-- The JSON value is that value of the element type; indices are below 2^63. -/
def C91.LOp.Ok (k : VK) : C91.LOp → Prop
  | .len => True
  | .get i => i < 2 ^ 63
  | .set i j v => i < 2 ^ 63 ∧ Fits k j v
  | .append j v => Fits k j v
  | .remove i => i < 2 ^ 63

/-- What they do with a list.  (Removing what is not there does nothing.) -/
def C91.listDoes (xs : List VV) : C91.LOp → Ans Unit × List VV
  | .len => (.num xs.length, xs)
  | .get i => if h : i < xs.length then (.elem xs[i], xs) else (.exception, xs)
  | .set i _ v => if i < xs.length then (.nothing, xs.set i v) else (.exception, xs)
  | .append _ v => (.nothing, xs ++ [v])
  | .remove i => (.nothing, xs.eraseIdx i)

def C91.runList : List VV → List C91.LOp → List (Ans Unit) × List VV
  | xs, [] => ([], xs)
  | xs, o :: os => let r := C91.listDoes xs o; let q := C91.runList r.2 os; (r.1 :: q.1, q.2)

/-- Statements about a dictionary; the JSON form of a key, the key. -/
inductive C91.DOp (K : Type)
  | len
  | get (j : J) (q : K)
  | set (j : J) (q : K) (jv : J) (v : VV)
  | remove (j : J) (q : K)
  | has (j : J) (q : K)
  | keys

def C91.DOp.op {K : Type} : C91.DOp K → Op
  | .len => .len
  | .get j _ => .get j
  | .set j _ jv _ => .set j jv
  | .remove j _ => .erase j
  | .has j _ => .contains j
  | .keys => .keys

def C91.DOp.Ok {K : Type} (ky : Key K) (k : VK) : C91.DOp K → Prop
  | .len => True
  | .get j q => ky.read j = .ok q
  | .set j q jv v => ky.read j = .ok q ∧ Fits k jv v
  | .remove j q => ky.conv j = .ok q
  | .has j q => ky.conv j = .ok q
  | .keys => True

/-- A dictionary: its items in the order in which their keys were added. -/
def C91.dget {K : Type} [DecidableEq K] (q : K) : List (K × VV) → Option VV
  | [] => none
  | e :: d => if e.1 = q then some e.2 else C91.dget q d

def C91.dset {K : Type} [DecidableEq K] (q : K) (v : VV) : List (K × VV) → List (K × VV)
  | [] => [(q, v)]
  | e :: d => if e.1 = q then (q, v) :: d else e :: C91.dset q v d

/-- (Removing what is not there does nothing.) -/
def C91.dictDoes {K : Type} [DecidableEq K] (d : List (K × VV)) : C91.DOp K → Ans K × List (K × VV)
  | .len => (.num d.length, d)
  | .get _ q => match C91.dget q d with | some v => (.elem v, d) | none => (.exception, d)
  | .set _ q _ v => (.nothing, C91.dset q v d)
  | .remove _ q => (.nothing, d.filter fun e => e.1 ≠ q)
  | .has _ q => (.truth (C91.dget q d).isSome, d)
  | .keys => (.keys (d.map (·.1)), d)

def C91.runDict {K : Type} [DecidableEq K] : List (K × VV) → List (C91.DOp K) → List (Ans K) × List (K × VV)
  | d, [] => ([], d)
  | d, o :: os => let r := C91.dictDoes d o; let q := C91.runDict r.2 os; (r.1 :: q.1, q.2)

open C91

/-! ### Sequences -/

private theorem readIdx_nat (lib : Lib) (i : Nat) (h : i < 2 ^ 63) : readIdx lib (.int i) = .ok i := by
  have : EnumKeys.cast size_t (EnumKeys.cast (Json.via size_t) i) = (i : Int) % 2 ^ 64 := by
    simp only [size_t, Json.via, EnumKeys.cast, EnumKeys.Width.modulus]
    simp
  simp only [readIdx, Json.getInt, this, R.ok.injEq]
  omega

private theorem unpack_fits {lib : Lib} {k : VK} {j : J} {v : VV} (h : Fits k j v) (x : VV) :
    unpackVar lib k j x = (.ok, v) := by
  cases h with
  | @int u i hi h64 =>
    have : EnumKeys.cast u (EnumKeys.cast (Json.via u) i) = i := by
      obtain ⟨w, s⟩ := u
      cases w <;> cases s <;>
        simp only [EnumKeys.InRange, Json.via, EnumKeys.cast, EnumKeys.Width.modulus, int64] at * <;> grind
    simp [unpackVar, Json.getInt, R.bind, this]
  | bool => simp [unpackVar, Json.getBool, R.bind]
  | real => simp [unpackVar, Json.getReal, R.bind]
  | str => simp [unpackVar, Json.getStr, R.bind]

private theorem conv_fits {lib : Lib} {trunc : EnumKeys.Under → Nat → Option Int} {k : VK} {j : J} {v : VV}
    (h : Fits k j v) (x : VV) : convVar lib trunc k j x = (.ok, v) := by
  cases h with
  | int hi h64 => simp [convVar, C88.cast_of_inRange, hi, h64]
  | bool => simp [convVar]
  | real => simp [convVar]
  | str => simp [convVar]

/-- Sequences of numbers, truth values or strings that can be appended to and erased from: every program gets the
answers a list gives, and leaves the same elements. -/
theorem C91_list_partial (lib : Lib) (trunc : EnumKeys.Under → Nat → Option Int) (k : VK) (shk : Unit → J) :
    ∀ (os : List LOp) (xs : List VV), (∀ o ∈ os, o.Ok k) →
    All lib shk (runList xs os).1 (run (seqStep lib trunc ⟨true, true⟩ k) xs (os.map LOp.op)).1 ∧
      (run (seqStep lib trunc ⟨true, true⟩ k) xs (os.map LOp.op)).2 = (runList xs os).2
  | [], xs, _ => ⟨.nil, rfl⟩
  | o :: os, xs, h => by
    have ho := h o (by simp)
    have key : Says lib shk (listDoes xs o).1 (seqStep lib trunc ⟨true, true⟩ k xs o.op).1 ∧
        (seqStep lib trunc ⟨true, true⟩ k xs o.op).2 = (listDoes xs o).2 := by
      cases o with
      | len => exact ⟨.num _, rfl⟩
      | get i =>
        simp only [LOp.op, seqStep, listDoes, readIdx_nat lib i ho]
        by_cases hi : i < xs.length
        · simp only [hi, dif_pos, List.getElem?_eq_getElem hi, and_true]; exact .elem _
        · simp only [hi, dif_neg, not_false_eq_true, List.getElem?_eq_none (Nat.le_of_not_lt hi), and_true]
          exact .exception
      | set i j v =>
        simp only [LOp.op, seqStep, seqSet, listDoes, readIdx_nat lib i ho.1]
        by_cases hi : i < xs.length
        · simp only [hi, if_pos, List.getElem?_eq_getElem hi, unpack_fits ho.2, and_true, done]; exact .nothing
        · simp only [hi, if_neg, not_false_eq_true, List.getElem?_eq_none (Nat.le_of_not_lt hi), and_true]
          exact .exception
      | append j v =>
        have ho : Fits k j v := ho
        simp only [LOp.op, seqStep, listDoes, conv_fits ho, if_true, and_true]
        exact .nothing
      | remove i =>
        simp only [LOp.op, seqStep, listDoes, readIdx_nat lib i ho, and_true]
        refine ⟨.nothing, ?_⟩
        split
        · rfl
        · rename_i hi; rw [List.eraseIdx_of_length_le (Nat.le_of_not_lt hi)]
    obtain ⟨h1, h2⟩ := C91_list_partial lib trunc k shk os (listDoes xs o).2 fun o' ho' => h o' (by simp [ho'])
    simp only [List.map_cons, run, runList, key.2]
    exact ⟨.cons key.1 h1, h2⟩

/-! ### Maps -/

private theorem dget_mem {K : Type} [DecidableEq K] {q : K} {v : VV} : ∀ {d : List (K × VV)}, (d.map (·.1)).Nodup →
    (dget q d = some v ↔ (q, v) ∈ d)
  | [], _ => by simp [dget]
  | e :: d, h => by
    simp only [List.map_cons, List.nodup_cons] at h
    simp only [dget]
    split
    · rename_i he
      subst he
      constructor
      · intro h2; cases h2; simp
      · intro h2
        rcases List.mem_cons.1 h2 with h2 | h2
        · rw [← h2]
        · exact absurd (List.mem_map.2 ⟨_, h2, rfl⟩) h.1
    · rename_i he
      rw [dget_mem h.2]
      constructor
      · intro h2; exact List.mem_cons_of_mem _ h2
      · intro h2
        rcases List.mem_cons.1 h2 with h2 | h2
        · exact absurd (by rw [← h2]) he
        · exact h2

private theorem dset_keys {K : Type} [DecidableEq K] (q : K) (v : VV) : ∀ (d : List (K × VV)),
    (dset q v d).map (·.1) = if q ∈ d.map (·.1) then d.map (·.1) else d.map (·.1) ++ [q]
  | [] => by simp [dset]
  | e :: d => by
    simp only [dset]
    split
    · rename_i he; simp [he]
    · rename_i he
      have he' : ¬ q = e.1 := fun h => he h.symm
      simp only [List.map_cons, dset_keys q v d, List.mem_cons, he', false_or]
      split <;> simp

private theorem dset_nodup {K : Type} [DecidableEq K] (q : K) (v : VV) {d : List (K × VV)} (h : (d.map (·.1)).Nodup) :
    ((dset q v d).map (·.1)).Nodup := by
  rw [dset_keys]
  split
  · exact h
  · rename_i hq
    rw [List.nodup_append]
    refine ⟨h, by simp, ?_⟩
    intro a ha b hb
    rw [List.mem_singleton.1 hb]
    rintro rfl
    exact hq ha

private theorem dget_dset {K : Type} [DecidableEq K] (q : K) (v : VV) (q' : K) : ∀ (d : List (K × VV)),
    dget q' (dset q v d) = if q' = q then some v else dget q' d
  | [] => by
    simp only [dset, dget]
    by_cases h : q' = q
    · simp [h]
    · simp [h, Ne.symm h]
  | e :: d => by
    simp only [dset]
    split
    · rename_i he
      simp only [dget, he]
      by_cases h : q' = q
      · simp [h]
      · simp [h, Ne.symm h]
    · rename_i he
      simp only [dget, dget_dset q v q' d]
      by_cases h : e.1 = q'
      · have : ¬ q' = q := fun hq => he (h.trans hq)
        simp [h, this]
      · simp [h]

private theorem dget_filter {K : Type} [DecidableEq K] (q q' : K) : ∀ (d : List (K × VV)),
    dget q' (d.filter fun e => e.1 ≠ q) = if q' = q then none else dget q' d
  | [] => by simp [dget]
  | e :: d => by
    have ih := dget_filter q q' d
    simp only [List.filter_cons]
    by_cases he : e.1 = q
    · simp only [he, ne_eq, not_true_eq_false, decide_false, Bool.false_eq_true, if_false, dget]
      rw [show (d.filter fun e => decide ¬e.1 = q) = d.filter fun e => e.1 ≠ q from rfl, ih]
      by_cases h : q' = q
      · simp [h]
      · simp [h, Ne.symm h]
    · simp only [ne_eq, he, not_false_eq_true, decide_true, if_true, dget]
      rw [show (d.filter fun e => decide ¬e.1 = q) = d.filter fun e => e.1 ≠ q from rfl, ih]
      by_cases h : e.1 = q'
      · have : ¬ q' = q := fun hq => he (h.trans hq)
        simp [h, this]
      · simp [h]

private theorem nodup_of_map {K : Type} : ∀ {l : List (K × VV)}, (l.map (·.1)).Nodup → l.Nodup
  | [], _ => by simp
  | e :: l, h => by
    simp only [List.map_cons, List.nodup_cons] at h ⊢
    exact ⟨fun he => h.1 (List.mem_map.2 ⟨e, he, rfl⟩), nodup_of_map h.2⟩

/-- A map and a dictionary with the same items. -/
private structure Rel {K : Type} [DecidableEq K] (lt : K → K → Bool) (m d : List (K × VV)) : Prop where
  sorted : Sorted lt m
  nodup : (d.map (·.1)).Nodup
  same : ∀ q, mfind lt q m = dget q d

private theorem Rel.perm {K : Type} [DecidableEq K] {lt : K → K → Bool} (ho : StrictOrd lt) {m d : List (K × VV)}
    (h : Rel lt m d) : d.Perm m := by
  have hn : d.Nodup := nodup_of_map h.nodup
  have hn' : m.Nodup := nodup_of_map (h.sorted.nodup ho)
  rw [List.perm_ext_iff_of_nodup hn hn']
  rintro ⟨q, v⟩
  rw [← dget_mem h.nodup, ← h.same, mfind_iff_mem ho h.sorted]

private theorem mput_minsert {K : Type} [DecidableEq K] {lt : K → K → Bool} (ho : StrictOrd lt) {m : List (K × VV)}
    (q : K) (x v : VV) (q' : K) :
    mfind lt q' (mput lt q v (minsert lt q x m)) = if q' = q then some v else mfind lt q' m := by
  rw [mfind_mput ho, mfind_minsert ho]
  split <;> rfl

/-- Maps: every program that would not raise a KeyError on a dictionary gets the answers the dictionary gives, the
keys in increasing order instead of the order in which they were added, and leaves the same items. -/
theorem C91_dict_partial {K : Type} [DecidableEq K] (ky : Key K) (ho : StrictOrd ky.lt) (shk : K → J)
    (pair : J → R (K × VV)) (lib : Lib) (k : VK) : ∀ (os : List (DOp K)) (m d : List (K × VV)), Sorted ky.lt m →
    (d.map (·.1)).Nodup → (∀ q, mfind ky.lt q m = dget q d) → (∀ o ∈ os, o.Ok ky k) →
    (∀ a ∈ (runDict d os).1, a ≠ .exception) →
    All lib shk (runDict d os).1 (run (mapStep ky shk pair lib k) m (os.map DOp.op)).1 ∧
      ∀ q, mfind ky.lt q (run (mapStep ky shk pair lib k) m (os.map DOp.op)).2 = dget q (runDict d os).2
  | [], m, d, _, _, hs, _, _ => ⟨.nil, hs⟩
  | o :: os, m, d, hm, hd, hs, h, he => by
    have ho' := h o (by simp)
    have hr : Rel ky.lt m d := ⟨hm, hd, hs⟩
    have hp := hr.perm ho
    simp only [runDict, List.mem_cons, forall_eq_or_imp] at he
    have key : Says lib shk (dictDoes d o).1 (mapStep ky shk pair lib k m o.op).1 ∧
        Rel ky.lt (mapStep ky shk pair lib k m o.op).2 (dictDoes d o).2 := by
      cases o with
      | len =>
        refine ⟨?_, hr⟩
        simp only [DOp.op, mapStep, dictDoes, ← hp.length_eq]
        exact .num _
      | get j q =>
        have ho' : ky.read j = .ok q := ho'
        simp only [DOp.op, mapStep, dictDoes, ho']
        have he1 := he.1
        simp only [dictDoes] at he1
        cases hq : dget q d with
        | none => rw [hq] at he1; exact absurd rfl he1
        | some v =>
          have h1 : minsert ky.lt q (dflt lib k) m = m := by
            apply Sorted.ext ho (sorted_minsert ho _ _ _ hm) hm
            intro q'
            rw [mfind_minsert ho]
            split
            · rename_i hqq; rw [hqq, hs q, hq]; rfl
            · rfl
          simp only [h1, hs q, hq, Option.getD_some]
          exact ⟨.elem _, hr⟩
      | set j q jv v =>
        simp only [DOp.op, mapStep, mapSetElem, dictDoes, ho'.1, unpack_fits ho'.2, done]
        refine ⟨.nothing, sorted_mput ho _ _ _ (sorted_minsert ho _ _ _ hm), dset_nodup q v hd, ?_⟩
        intro q'
        rw [mput_minsert ho, dget_dset, hs q']
      | remove j q =>
        have ho' : ky.conv j = .ok q := ho'
        simp only [DOp.op, mapStep, dictDoes, ho']
        refine ⟨.nothing, sorted_merase _ _ hm, ?_, ?_⟩
        · exact hd.sublist (List.Sublist.map _ List.filter_sublist)
        · intro q'
          rw [mfind_merase ho _ _ hm, dget_filter, hs q']
      | has j q =>
        have ho' : ky.conv j = .ok q := ho'
        simp only [DOp.op, mapStep, dictDoes, ho', hs q]
        exact ⟨.truth _, hr⟩
      | keys =>
        refine ⟨?_, hr⟩
        simp only [DOp.op, mapStep, dictDoes]
        rw [show (m.map fun e => shk e.1) = (m.map (·.1)).map shk by simp]
        exact .keys _ _ (hp.map _)
    obtain ⟨h1, h2⟩ := C91_dict_partial ky ho shk pair lib k os _ _ key.2.sorted key.2.nodup key.2.same
      (fun o' ho' => h o' (by simp [ho'])) he.2
    simp only [List.map_cons, run, runDict]
    exact ⟨.cons key.1 h1, h2⟩

/-! ### Where it is otherwise -/

/-- `del w[i]` on a sequence removes nothing; an element of type double becomes NaN, and there is no exception. -/
theorem C91_fails_del (lib : Lib) (trunc : EnumKeys.Under → Nat → Option Int) (ty : Ty) (k : VK) (xs : List VV) (j : J) :
    (seqStep lib trunc ty k xs (.del j)).2.length = xs.length ∧
    ∀ i : Nat, i < xs.length → i < 2 ^ 63 →
      seqStep lib trunc ty .real xs (.del (.int i)) = (.value .null, xs.set i (.real lib.nan)) := by
  constructor
  · simp only [seqStep, seqSet]
    split
    · split
      · simp
      · rfl
    · rfl
    · rfl
  · intro i hi h63
    simp [seqStep, seqSet, readIdx_nat lib i h63, List.getElem?_eq_getElem hi, unpackVar, Json.getReal, R.bind, done]

/-- Nor on a map: the key is there afterwards, and if it was not, it has been added. -/
theorem C91_fails_del_key {K : Type} [DecidableEq K] (ky : Key K) (ho : StrictOrd ky.lt) (shk : K → J)
    (pair : J → R (K × VV)) (lib : Lib) (k : VK) (m : List (K × VV)) (j : J) (q : K) (hq : ky.read j = .ok q) :
    (mfind ky.lt q (mapStep ky shk pair lib k m (.del j)).2).isSome = true := by
  simp only [mapStep, mapSetElem, hq]
  rw [mfind_mput ho, if_pos rfl]
  rfl

/-- Reading a key that is not there gives a zero (or empty string) and adds it. -/
theorem C91_fails_missing {K : Type} [DecidableEq K] (ky : Key K) (ho : StrictOrd ky.lt) (shk : K → J)
    (pair : J → R (K × VV)) (lib : Lib) (k : VK) (m : List (K × VV)) (j : J) (q : K) (hq : ky.read j = .ok q)
    (hm : mfind ky.lt q m = none) :
    (mapStep ky shk pair lib k m (.get j)).1 = .value (showVar lib (dflt lib k)) ∧
      mfind ky.lt q (mapStep ky shk pair lib k m (.get j)).2 = some (dflt lib k) := by
  simp only [mapStep, hq]
  rw [mfind_minsert ho, if_pos rfl, hm]
  exact ⟨rfl, rfl⟩

/-- Assigning a value of the wrong type to a key that is not there raises an exception and adds the key. -/
theorem C91_fails_wrong {K : Type} [DecidableEq K] (ky : Key K) (ho : StrictOrd ky.lt) (shk : K → J)
    (pair : J → R (K × VV)) (lib : Lib) (hl : lib.mm = .lib) (m : List (K × VV)) (j : J) (q : K)
    (hq : ky.read j = .ok q) (hm : mfind ky.lt q m = none) (s : Str) (u : EnumKeys.Under) :
    (mapStep ky shk pair lib (.int u) m (.set j (.str s))).1 = .error ∧
      mfind ky.lt q (mapStep ky shk pair lib (.int u) m (.set j (.str s))).2 = some (.int 0) := by
  simp only [mapStep, mapSetElem, hq, unpackVar, Json.getInt, hl, R.bind, Json.Err.isPack]
  rw [mfind_mput ho, if_pos rfl, mfind_minsert ho, if_pos rfl, hm]
  exact ⟨rfl, rfl⟩

/-- `contains` of a sequence says no to everything. -/
theorem C91_fails_contains (lib : Lib) (trunc : EnumKeys.Under → Nat → Option Int) (ty : Ty) (k : VK) (xs : List VV)
    (v : VV) (_ : v ∈ xs) : seqStep lib trunc ty k xs (.contains (showVar lib v)) = (.value (.bool false), xs) := rfl

/-- Indices from the end are refused. -/
theorem C91_fails_negative (lib : Lib) (trunc : EnumKeys.Under → Nat → Option Int) (ty : Ty) (k : VK) (xs : List VV)
    (i : Int) (hi : -(2 : Int) ^ 63 ≤ i ∧ i < 0) (hx : xs.length < 2 ^ 63) :
    seqStep lib trunc ty k xs (.get (.int i)) = (.error, xs) := by
  have h1 : EnumKeys.cast size_t (EnumKeys.cast (Json.via size_t) i) = i % 2 ^ 64 := by
    simp only [size_t, Json.via, EnumKeys.cast, EnumKeys.Width.modulus]
    simp
  have h2 : readIdx lib (.int i) = .ok (i % 2 ^ 64).toNat := by simp [readIdx, Json.getInt, h1]
  have h3 : xs[(i % 2 ^ 64).toNat]? = none := List.getElem?_eq_none (by omega)
  simp only [seqStep, h2, h3]

/-- A number is contained in a map with string keys if the character with that code is a key, and erases it. -/
theorem C91_fails_number_key (lib : Lib) (trunc : EnumKeys.Under → Nat → Option Int) (shk : Str → J)
    (pair : J → R (Str × VV)) (k : VK) (m : List (Str × VV)) (c : UInt8) :
    mapStep (strKey lib trunc) shk pair lib k m (.contains (.int c.toNat)) =
      mapStep (strKey lib trunc) shk pair lib k m (.contains (.str [c])) ∧
    mapStep (strKey lib trunc) shk pair lib k m (.erase (.int c.toNat)) =
      mapStep (strKey lib trunc) shk pair lib k m (.erase (.str [c])) := by
  have hc : c.toNat < 256 := c.toNat_lt
  have h1 : EnumKeys.cast int64 (c.toNat : Int) = c.toNat := by
    apply C88.cast_of_inRange
    simp only [EnumKeys.InRange, int64, EnumKeys.Width.modulus, if_true]
    omega
  have h2 : (strKey lib trunc).conv (.int c.toNat) = (strKey lib trunc).conv (.str [c]) := by
    have h3 : (((c.toNat : Int) % 256).toNat) = c.toNat := by omega
    simp [strKey, convVar, h1, charOf, h3]
  simp only [mapStep, h2, and_self]

/-- Asking a map with integer keys whether it contains None reads a variable that has no value. -/
theorem C91_fails_none_key (lib : Lib) (trunc : EnumKeys.Under → Nat → Option Int) (u : EnumKeys.Under) (shk : Int → J)
    (pair : J → R (Int × VV)) (k : VK) (m : List (Int × VV)) :
    mapStep (intKey lib trunc u) shk pair lib k m (.contains .null) = (.ub, m) := rfl

/-- Erasing from a sequence of fixed size does nothing and says nothing. -/
theorem C91_fails_fixed (lib : Lib) (trunc : EnumKeys.Under → Nat → Option Int) (ins : Bool) (k : VK) (xs : List VV)
    (i : Nat) (hi : i < 2 ^ 63) : seqStep lib trunc ⟨ins, false⟩ k xs (.erase (.int i)) = (.value .null, xs) := by
  simp [seqStep, readIdx_nat lib i hi]

/-! ### Instances -/

private def exLib : Lib := ⟨.lib, 0, fun i => i.toNat, id, id⟩

example : (∀ o ∈ [LOp.append (.int 3) (.int 3), .append (.int (-4)) (.int (-4)), .set 1 (.int 5) (.int 5), .get 1, .remove 0,
    .len, .get 7], o.Ok (.int EnumKeys.int32)) := by
  intro o h
  simp only [List.mem_cons, List.not_mem_nil, or_false] at h
  have hf : ∀ i : Int, -100 < i → i < 100 → Fits (.int EnumKeys.int32) (.int i) (.int i) := by
    intro i h1 h2
    refine .int ?_ ?_ <;>
      simp only [EnumKeys.InRange, EnumKeys.int32, int64, EnumKeys.Width.modulus, if_true] <;> omega
  rcases h with rfl | rfl | rfl | rfl | rfl | rfl | rfl
  · exact hf 3 (by omega) (by omega)
  · exact hf (-4) (by omega) (by omega)
  · exact ⟨by decide, hf 5 (by omega) (by omega)⟩
  · exact (by decide : 1 < 2 ^ 63)
  · exact (by decide : 0 < 2 ^ 63)
  · trivial
  · exact (by decide : 7 < 2 ^ 63)

private def exOps : List (DOp Str) :=
  [.set (.str (b "y")) (b "y") (.str (b "1")) (.str (b "1")), .set (.str (b "x")) (b "x") (.str (b "2")) (.str (b "2")),
    .get (.str (b "y")) (b "y"), .keys, .remove (.str (b "y")) (b "y"), .has (.str (b "y")) (b "y"), .len]

example (trunc : EnumKeys.Under → Nat → Option Int) (pair : J → R (Str × VV)) (shk : Str → J) :
    All exLib shk (runDict [] exOps).1
      (run (mapStep (strKey exLib trunc) shk pair exLib .str) [] (exOps.map DOp.op)).1 := by
  refine (C91_dict_partial (strKey exLib trunc) strOrd shk pair exLib .str exOps [] [] trivial (by simp)
    (fun _ => rfl) ?_ ?_).1
  · intro o h
    simp only [exOps, List.mem_cons, List.not_mem_nil, or_false] at h
    rcases h with rfl | rfl | rfl | rfl | rfl | rfl | rfl
    · exact ⟨rfl, .str⟩
    · exact ⟨rfl, .str⟩
    · exact rfl
    · trivial
    · exact rfl
    · exact rfl
    · trivial
  · have h1 : b "y" ≠ b "x" := by decide
    simp [exOps, runDict, dictDoes, dset, dget, h1]

end Verif.PyCon
