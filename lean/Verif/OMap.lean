/-
Ordered associative containers.

`std::map<K,V>` is not part of /repo, but classdesc keeps its tables in it
(classdesc.h:770-771, factory.h:27, RESTProcess_base.h:340-400,
xml_unpack_base.h:320-354).  The model is the standard one: a list of key/value
pairs strictly increasing in the comparison, searched and updated with the
comparison only.
-/
namespace Verif.OMap

/-- A strict total order given as a boolean comparison (`std::less<K>`). -/
structure StrictOrd {K : Type} (lt : K → K → Bool) : Prop where
  irrefl : ∀ a, lt a a = false
  trans : ∀ a b c, lt a b = true → lt b c = true → lt a c = true
  tri : ∀ a b, lt a b = false → lt b a = false → a = b

variable {K V : Type} (lt : K → K → Bool)

/-- `m.find(k)` followed by reading `->second`. -/
def mfind (k : K) : List (K × V) → Option V
  | [] => none
  | (k', v') :: r => if lt k k' then none else if lt k' k then mfind k r else some v'

/-- `m[k]=v`: last assignment wins. -/
def mput (k : K) (v : V) : List (K × V) → List (K × V)
  | [] => [(k, v)]
  | (k', v') :: r =>
    if lt k k' then (k, v) :: (k', v') :: r
    else if lt k' k then (k', v') :: mput k v r
    else (k', v) :: r

/-- `m.insert(make_pair(k,v))`: an existing entry is kept. -/
def minsert (k : K) (v : V) : List (K × V) → List (K × V)
  | [] => [(k, v)]
  | (k', v') :: r =>
    if lt k k' then (k, v) :: (k', v') :: r
    else if lt k' k then (k', v') :: minsert k v r
    else (k', v') :: r

/-- `m.erase(k)`. -/
def merase (k : K) : List (K × V) → List (K × V)
  | [] => []
  | (k', v') :: r =>
    if lt k k' then (k', v') :: r
    else if lt k' k then (k', v') :: merase k r
    else r

/-- The representation invariant: keys strictly increasing. -/
def Sorted : List (K × V) → Prop
  | [] => True
  | (k, _) :: r => (∀ e ∈ r, lt k e.1 = true) ∧ Sorted r

variable {lt}

theorem StrictOrd.asymm (h : StrictOrd lt) {a b : K} (hab : lt a b = true) : lt b a = false := by
  cases hba : lt b a with
  | false => rfl
  | true => have := h.trans _ _ _ hab hba; rw [h.irrefl] at this; exact absurd this (by decide)

theorem StrictOrd.ne (h : StrictOrd lt) {a b : K} (hab : lt a b = true) : a ≠ b := by
  intro e; subst e; rw [h.irrefl] at hab; exact absurd hab (by decide)

theorem mem_mput (k : K) (v : V) (m : List (K × V)) (e : K × V) (he : e ∈ mput lt k v m) :
    e.1 = k ∧ e.2 = v ∨ e ∈ m ∨ (∃ v', (e.1, v') ∈ m ∧ e.2 = v) := by
  induction m with
  | nil => simp [mput] at he; subst he; simp
  | cons x r ih =>
    obtain ⟨k', v'⟩ := x
    simp only [mput] at he
    split at he
    · simp at he; rcases he with h | h | h
      · subst h; simp
      · subst h; simp
      · right; left; simp [h]
    · split at he
      · simp at he; rcases he with h | h
        · subst h; simp
        · rcases ih h with h | h | ⟨v'', h, h2⟩
          · exact .inl h
          · right; left; simp [h]
          · right; right; exact ⟨v'', by simp [h], h2⟩
      · simp at he; rcases he with h | h
        · subst h; right; right; exact ⟨v', by simp, rfl⟩
        · right; left; simp [h]

theorem mem_mput_key (k : K) (v : V) (m : List (K × V)) (e : K × V) (he : e ∈ mput lt k v m) :
    e.1 = k ∨ e.1 ∈ m.map (·.1) := by
  rcases mem_mput k v m e he with h | h | ⟨v', h, _⟩
  · exact .inl h.1
  · exact .inr (List.mem_map.2 ⟨e, h, rfl⟩)
  · exact .inr (List.mem_map.2 ⟨_, h, rfl⟩)

theorem mem_minsert_key (k : K) (v : V) (m : List (K × V)) (e : K × V)
    (he : e ∈ minsert lt k v m) : e = (k, v) ∨ e ∈ m := by
  induction m with
  | nil => simp [minsert] at he; exact .inl he
  | cons x r ih =>
    obtain ⟨k', v'⟩ := x
    simp only [minsert] at he
    split at he
    · simp at he; rcases he with h | h | h
      · exact .inl h
      · right; simp [h]
      · right; simp [h]
    · split at he
      · simp at he; rcases he with h | h
        · right; simp [h]
        · rcases ih h with h | h
          · exact .inl h
          · right; simp [h]
      · exact .inr he

theorem sorted_mput (h : StrictOrd lt) (k : K) (v : V) (m : List (K × V)) (hm : Sorted lt m) :
    Sorted lt (mput lt k v m) := by
  induction m with
  | nil => simp [mput, Sorted]
  | cons x r ih =>
    obtain ⟨k', v'⟩ := x
    simp only [mput]
    split
    · rename_i hlt
      refine ⟨?_, hm⟩
      intro e he
      simp at he
      rcases he with he | he
      · subst he; exact hlt
      · exact h.trans _ _ _ hlt (hm.1 e he)
    · split
      · rename_i hlt
        refine ⟨?_, ih hm.2⟩
        intro e he
        rcases mem_mput_key k v r e he with hk | hk
        · rw [hk]; exact hlt
        · obtain ⟨x, hx, hx2⟩ := List.mem_map.1 hk
          rw [← hx2]; exact hm.1 x hx
      · exact hm

theorem sorted_minsert (h : StrictOrd lt) (k : K) (v : V) (m : List (K × V)) (hm : Sorted lt m) :
    Sorted lt (minsert lt k v m) := by
  induction m with
  | nil => simp [minsert, Sorted]
  | cons x r ih =>
    obtain ⟨k', v'⟩ := x
    simp only [minsert]
    split
    · rename_i hlt
      refine ⟨?_, hm⟩
      intro e he
      simp at he
      rcases he with he | he
      · subst he; exact hlt
      · exact h.trans _ _ _ hlt (hm.1 e he)
    · split
      · rename_i hlt
        refine ⟨?_, ih hm.2⟩
        intro e he
        rcases mem_minsert_key k v r e he with hk | hk
        · subst hk; exact hlt
        · exact hm.1 e hk
      · exact hm

theorem mfind_eq_none_of_lt {k : K} {m : List (K × V)} (hm : ∀ e ∈ m, lt k e.1 = true) :
    mfind lt k m = none := by
  cases m with
  | nil => rfl
  | cons x r => obtain ⟨k', v'⟩ := x; simp [mfind, hm (k', v') (by simp)]

/-- Looking up after `m[k]=v`. -/
theorem mfind_mput (h : StrictOrd lt) [DecidableEq K] (k : K) (v : V) (m : List (K × V))
    (q : K) : mfind lt q (mput lt k v m) = if q = k then some v else mfind lt q m := by
  induction m with
  | nil =>
    by_cases hq : q = k
    · subst hq; simp [mput, mfind, h.irrefl]
    · simp only [mput, mfind, if_neg hq]
      split
      · rfl
      · split
        · rfl
        · rename_i a b
          exact absurd (h.tri q k (by simpa using a) (by simpa using b)) hq
  | cons x r ih =>
    obtain ⟨k', v'⟩ := x
    simp only [mput]
    by_cases hk : lt k k' = true
    · simp only [hk, if_true]
      by_cases hq : q = k
      · subst hq; simp [mfind, h.irrefl]
      · simp only [if_neg hq]
        show (if lt q k then none else if lt k q then mfind lt q ((k', v') :: r) else some v) = _
        by_cases h1 : lt q k = true
        · have := h.trans _ _ _ h1 hk
          simp [h1, mfind, this]
        · by_cases h2 : lt k q = true
          · simp [h1, h2]
          · exact absurd (h.tri q k (by simpa using h1) (by simpa using h2)) hq
    · simp only [hk]
      by_cases hk2 : lt k' k = true
      · simp only [hk2, if_true]
        show (if lt q k' then none else if lt k' q then mfind lt q (mput lt k v r) else some v')
            = if q = k then some v else
              (if lt q k' then none else if lt k' q then mfind lt q r else some v')
        rw [ih]
        by_cases hq : q = k
        · subst hq; simp [hk, hk2]
        · simp [hq]
      · have e := h.tri k k' (by simpa using hk) (by simpa using hk2)
        subst e
        simp only [hk2]
        show (if lt q k then none else if lt k q then mfind lt q r else some v)
            = if q = k then some v else
              (if lt q k then none else if lt k q then mfind lt q r else some v')
        by_cases hq : q = k
        · subst hq; simp [h.irrefl]
        · by_cases h1 : lt q k = true
          · simp [h1, hq]
          · by_cases h2 : lt k q = true
            · simp [h1, h2, hq]
            · exact absurd (h.tri q k (by simpa using h1) (by simpa using h2)) hq

/-- Looking up after `m.insert({k,v})`. -/
theorem mfind_minsert (h : StrictOrd lt) [DecidableEq K] (k : K) (v : V) (m : List (K × V))
    (q : K) : mfind lt q (minsert lt k v m)
      = if q = k then some ((mfind lt q m).getD v) else mfind lt q m := by
  induction m with
  | nil =>
    by_cases hq : q = k
    · subst hq; simp [minsert, mfind, h.irrefl]
    · simp only [minsert, mfind, if_neg hq]
      split
      · rfl
      · split
        · rfl
        · rename_i a b
          exact absurd (h.tri q k (by simpa using a) (by simpa using b)) hq
  | cons x r ih =>
    obtain ⟨k', v'⟩ := x
    simp only [minsert]
    by_cases hk : lt k k' = true
    · simp only [hk, if_true]
      by_cases hq : q = k
      · subst hq; simp [mfind, h.irrefl, hk]
      · simp only [if_neg hq]
        show (if lt q k then none else if lt k q then mfind lt q ((k', v') :: r) else some v) = _
        by_cases h1 : lt q k = true
        · have := h.trans _ _ _ h1 hk
          simp [h1, mfind, this]
        · by_cases h2 : lt k q = true
          · simp [h1, h2]
          · exact absurd (h.tri q k (by simpa using h1) (by simpa using h2)) hq
    · simp only [hk]
      by_cases hk2 : lt k' k = true
      · simp only [hk2, if_true]
        show (if lt q k' then none else if lt k' q then mfind lt q (minsert lt k v r) else some v')
            = if q = k then some ((mfind lt q ((k', v') :: r)).getD v) else
              (if lt q k' then none else if lt k' q then mfind lt q r else some v')
        rw [ih]
        by_cases hq : q = k
        · subst hq; simp [hk, hk2, mfind]
        · simp [hq]
      · have e := h.tri k k' (by simpa using hk) (by simpa using hk2)
        subst e
        simp only [hk2]
        by_cases hq : q = k
        · subst hq; simp [h.irrefl, mfind]
        · simp [hq]

theorem mem_merase (k : K) (m : List (K × V)) (e : K × V) (he : e ∈ merase lt k m) : e ∈ m := by
  induction m with
  | nil => simp [merase] at he
  | cons x m ih =>
    obtain ⟨a, c⟩ := x
    simp only [merase] at he
    split at he
    · exact he
    · split at he
      · rcases List.mem_cons.1 he with h | h
        · exact h ▸ List.mem_cons_self ..
        · exact List.mem_cons_of_mem _ (ih h)
      · exact List.mem_cons_of_mem _ he

theorem sorted_merase (k : K) (m : List (K × V)) (hm : Sorted lt m) : Sorted lt (merase lt k m) := by
  induction m with
  | nil => trivial
  | cons x r ih =>
    obtain ⟨k', v'⟩ := x
    simp only [merase]
    split
    · exact hm
    · split
      · exact ⟨fun e he => hm.1 e (mem_merase k r e he), ih hm.2⟩
      · exact hm.2

/-- Looking up after `m.erase(k)`. -/
theorem mfind_merase (h : StrictOrd lt) [DecidableEq K] (k : K) (m : List (K × V)) (hm : Sorted lt m) (q : K) :
    mfind lt q (merase lt k m) = if q = k then none else mfind lt q m := by
  induction m with
  | nil => simp [merase, mfind]
  | cons x r ih =>
    obtain ⟨k', v'⟩ := x
    simp only [merase]
    by_cases h1 : lt k k' = true
    · simp only [h1, if_true]
      by_cases hq : q = k
      · subst hq; simp [mfind, h1]
      · simp [hq]
    · by_cases h2 : lt k' k = true
      · simp only [h1, h2, if_true]
        by_cases hq : q = k
        · subst hq; simp [mfind, h1, h2, ih hm.2]
        · simp [mfind, ih hm.2, hq]
      · have e := h.tri k k' (by simpa using h1) (by simpa using h2)
        subst e
        simp only [h1]
        by_cases hq : q = k
        · subst hq; simp only [if_true, Bool.false_eq_true, if_false]
          exact mfind_eq_none_of_lt hm.1
        · simp only [hq, if_false, Bool.false_eq_true, mfind]
          by_cases h3 : lt q k = true
          · simp only [h3, if_true]
            exact mfind_eq_none_of_lt fun e he => h.trans _ _ _ h3 (hm.1 e he)
          · by_cases h4 : lt k q = true
            · simp [h3, h4]
            · exact absurd (h.tri q k (by simpa using h3) (by simpa using h4)) hq

/-- In a sorted list lookup is membership. -/
theorem mfind_iff_mem (h : StrictOrd lt) {m : List (K × V)} (hm : Sorted lt m) (k : K) (v : V) :
    mfind lt k m = some v ↔ (k, v) ∈ m := by
  induction m with
  | nil => simp [mfind]
  | cons x r ih =>
    obtain ⟨k', v'⟩ := x
    simp only [mfind]
    by_cases h1 : lt k k' = true
    · simp only [h1, if_true]
      constructor
      · intro a; cases a
      · intro a
        simp at a
        rcases a with ⟨a, _⟩ | a
        · subst a; rw [h.irrefl] at h1; cases h1
        · have := h.asymm (hm.1 _ a); simp [h1] at this
    · by_cases h2 : lt k' k = true
      · simp only [h1, h2, if_true]
        rw [if_neg (by simp), ih hm.2]
        simp
        intro a; subst a; rw [h.irrefl] at h2; cases h2
      · have e := h.tri k k' (by simpa using h1) (by simpa using h2)
        subst e
        simp only [h1]
        simp
        constructor
        · intro a; exact .inl a.symm
        · rintro (a | a)
          · exact a.symm
          · have := hm.1 _ a; simp [h.irrefl] at this

theorem mfind_none_iff (h : StrictOrd lt) {m : List (K × V)} (hm : Sorted lt m) (k : K) :
    mfind lt k m = none ↔ k ∉ m.map (·.1) := by
  constructor
  · intro hn hk
    obtain ⟨⟨a, b⟩, he, rfl⟩ := List.mem_map.1 hk
    rw [(mfind_iff_mem h hm _ _).2 he] at hn
    cases hn
  · intro hk
    cases hf : mfind lt k m with
    | none => rfl
    | some v => exact absurd (List.mem_map.2 ⟨_, (mfind_iff_mem h hm _ _).1 hf, rfl⟩) hk

/-- Keys of a sorted list are distinct. -/
theorem Sorted.nodup (h : StrictOrd lt) {m : List (K × V)} (hm : Sorted lt m) :
    (m.map (·.1)).Nodup := by
  induction m with
  | nil => simp
  | cons x r ih =>
    obtain ⟨k, v⟩ := x
    simp only [List.map_cons, List.nodup_cons]
    refine ⟨?_, ih hm.2⟩
    intro hk
    obtain ⟨e, he, hek⟩ := List.mem_map.1 hk
    exact h.ne (hm.1 e he) hek.symm

/-- Keys in a sorted list increase. -/
theorem Sorted.pairwise {m : List (K × V)} (hm : Sorted lt m) :
    (m.map (·.1)).Pairwise (fun a b => lt a b = true) := by
  induction m with
  | nil => simp
  | cons x r ih =>
    obtain ⟨k, v⟩ := x
    simp only [List.map_cons, List.pairwise_cons]
    refine ⟨?_, ih hm.2⟩
    intro a ha
    obtain ⟨e, he, hek⟩ := List.mem_map.1 ha
    rw [← hek]; exact hm.1 e he

/-- Two sorted lists answering every lookup alike are equal. -/
theorem Sorted.ext (h : StrictOrd lt) : ∀ {m m' : List (K × V)}, Sorted lt m → Sorted lt m' →
    (∀ k, mfind lt k m = mfind lt k m') → m = m'
  | [], [], _, _, _ => rfl
  | [], (k, v) :: r, _, _, hq => by have := hq k; simp [mfind, h.irrefl] at this
  | (k, v) :: r, [], _, _, hq => by have := hq k; simp [mfind, h.irrefl] at this
  | (k, v) :: r, (k', v') :: r', hm, hm', hq => by
    have e1 := hq k
    have e2 := hq k'
    have hkk : k = k' := by
      apply h.tri
      · cases hl : lt k k' with
        | false => rfl
        | true => simp [mfind, h.irrefl, hl] at e1
      · cases hl : lt k' k with
        | false => rfl
        | true => simp [mfind, h.irrefl, hl] at e2
    subst hkk
    simp [mfind, h.irrefl] at e1
    subst e1
    congr 1
    apply Sorted.ext h hm.2 hm'.2
    intro q
    have := hq q
    simp only [mfind] at this
    by_cases h1 : lt q k = true
    · rw [mfind_eq_none_of_lt (fun e he => h.trans _ _ _ h1 (hm.1 e he)),
        mfind_eq_none_of_lt (fun e he => h.trans _ _ _ h1 (hm'.1 e he))]
    · by_cases h2 : lt k q = true
      · simpa [h1, h2] using this
      · have e := h.tri q k (by simpa using h1) (by simpa using h2)
        subst e
        rw [mfind_eq_none_of_lt hm.1, mfind_eq_none_of_lt hm'.1]

/-! ### Orders used as keys -/

theorem natOrd : StrictOrd (fun a b : Nat => decide (a < b)) where
  irrefl := by simp
  trans := by simp; omega
  tri := by simp; omega

theorem intOrd : StrictOrd (fun a b : Int => decide (a < b)) where
  irrefl := by simp
  trans := by simp; omega
  tri := by simp; omega

/-- Lexicographic comparison, as `std::string`'s `operator<`
(`char_traits<char>::lt` compares as unsigned char). -/
def strLt : List UInt8 → List UInt8 → Bool
  | [], [] => false
  | [], _ :: _ => true
  | _ :: _, [] => false
  | a :: x, b :: y => if a < b then true else if b < a then false else strLt x y

theorem strOrd : StrictOrd strLt where
  irrefl := by
    intro a
    induction a with
    | nil => rfl
    | cons c r ih => simp [strLt, ih]
  trans := by
    intro a
    induction a with
    | nil =>
      intro b c hab hbc
      cases c with
      | nil => cases b <;> simp [strLt] at hbc
      | cons => rfl
    | cons x xs ih =>
      intro b c hab hbc
      cases b with
      | nil => simp [strLt] at hab
      | cons y ys =>
        cases c with
        | nil => simp [strLt] at hbc
        | cons z zs =>
          simp only [strLt] at hab hbc ⊢
          simp only [UInt8.lt_iff_toNat_lt] at hab hbc ⊢
          split at hab
          · split at hbc
            · rw [if_pos (by omega)]
            · split at hbc
              · cases hbc
              · rw [if_pos (by omega)]
          · split at hab
            · cases hab
            · split at hbc
              · rw [if_pos (by omega)]
              · split at hbc
                · cases hbc
                · rw [if_neg (by omega), if_neg (by omega)]
                  exact ih _ _ hab hbc
  tri := by
    intro a
    induction a with
    | nil => intro b h1 h2; cases b with
      | nil => rfl
      | cons => simp [strLt] at h1
    | cons x xs ih =>
      intro b h1 h2
      cases b with
      | nil => simp [strLt] at h2
      | cons y ys =>
        simp only [strLt] at h1 h2
        split at h1
        · cases h1
        · rename_i n1
          rw [if_neg n1] at h2
          split at h2
          · cases h2
          · rename_i n2
            rw [if_neg n2] at h1
            have : x = y := by
              apply UInt8.toNat.inj
              simp only [UInt8.lt_iff_toNat_lt] at n1 n2
              omega
            subst this
            rw [ih ys h1 h2]

end Verif.OMap
