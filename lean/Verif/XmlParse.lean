import Verif.Xml
/-
The parser of XML tokens: bounds of the recursion are irrelevant, equations, what a parse consumes.
-/
namespace Verif.Xml
open OMap EnumKeys
open Verif.Json (JV dot tail)

theorem attrEq_len {l l1 : List Str} (h : attrEq l = some l1) : l1.length < l.length := by
  induction l with
  | nil => simp [attrEq] at h
  | cons t l ih =>
    simp only [attrEq] at h
    split at h
    · cases h
    split at h
    · have := ih h; simp; omega
    split at h
    · cases h; simp
    · cases h

theorem attrVal_len {l l1 : List Str} {v : Str} (h : attrVal l = some (v, l1)) :
    l1.length < l.length := by
  induction l with
  | nil => simp [attrVal] at h
  | cons t l ih =>
    simp only [attrVal] at h
    split at h
    · cases h
    split at h
    · have := ih h; simp; omega
    · cases h; simp

theorem skipEnd_len {l l1 : List Str} (h : skipEnd l = some l1) : l1.length < l.length := by
  induction l with
  | nil => simp [skipEnd] at h
  | cons t l ih =>
    simp only [skipEnd] at h
    split at h
    · cases h
    split at h
    · cases h; simp
    · have := ih h; simp; omega

theorem endTag_len {scope : Str} {l l1 : List Str} (h : endTag scope l = some l1) :
    l1.length < l.length := by
  cases l with
  | nil => simp [endTag] at h
  | cons t l =>
    simp only [endTag] at h
    split at h
    · cases h
    split at h
    · split at h
      · cases h; simp
      · have := skipEnd_len h; simp; omega
    · cases h

theorem attrs_len {si : Str} (f : Nat) {m m1 : DB} {l l1 : List Str} {b : Bool}
    (h : attrs si f m l = some (m1, b, l1)) : l1.length < l.length := by
  induction f generalizing m l with
  | zero => simp [attrs] at h
  | succ f ih =>
    cases l with
    | nil => simp [attrs] at h
    | cons t l =>
      simp only [attrs] at h
      split at h
      · cases h
      split at h
      · cases h; simp
      split at h
      · cases h; simp
      split at h
      · have := ih h; simp; omega
      · cases he : attrEq l with
        | none => simp [he] at h
        | some l2 =>
          cases hv : attrVal l2 with
          | none => simp [he, hv] at h
          | some p =>
            obtain ⟨v, l3⟩ := p
            simp only [he, hv] at h
            have := ih h; have := attrEq_len he; have := attrVal_len hv
            simp; omega

theorem attrs_fuel {si : Str} (f : Nat) : ∀ (g : Nat) (m : DB) (l : List Str),
    l.length < f → l.length < g → attrs si f m l = attrs si g m l := by
  induction f with
  | zero => intro g m l h; omega
  | succ f ih =>
    intro g m l h1 h2
    cases g with
    | zero => omega
    | succ g =>
      cases l with
      | nil => rfl
      | cons t l =>
        simp only [List.length_cons] at h1 h2
        simp only [attrs]
        split
        · rfl
        split
        · rfl
        split
        · rfl
        split
        · exact ih g m l (by omega) (by omega)
        · cases he : attrEq l with
          | none => rfl
          | some l2 =>
            cases hv : attrVal l2 with
            | none => simp only [hv]
            | some p =>
              obtain ⟨v, l3⟩ := p
              have := attrEq_len he; have := attrVal_len hv
              simp only [hv]
              exact ih g _ l3 (by omega) (by omega)

theorem parse_len (f : Nat) :
    (∀ scope m l m' l', elem f scope m l = some (m', l') → l'.length < l.length) ∧
    (∀ si acc m l t m' l', content f si acc m l = some (t, m', l') → l'.length < l.length) := by
  induction f with
  | zero => constructor <;> intros <;> simp_all [elem, content]
  | succ f ih =>
    obtain ⟨ihe, ihc⟩ := ih
    constructor
    · intro scope m l m' l' h
      simp only [elem] at h
      cases ha : attrs (idx scope (countOf m scope)) (l.length + 1) (bump m scope) l with
      | none => simp [ha] at h
      | some r =>
        obtain ⟨m1, b, l1⟩ := r
        have hl := attrs_len _ ha
        simp only [ha] at h
        cases b with
        | true => simp only at h; cases h; exact hl
        | false =>
          simp only at h
          cases hc : content f (idx scope (countOf m scope)) [] m1 l1 with
          | none => simp [hc] at h
          | some r2 =>
            obtain ⟨txt, m2, l2⟩ := r2
            have := ihc _ _ _ _ _ _ _ hc
            simp only [hc] at h
            cases he : endTag scope l2 with
            | none => simp [he] at h
            | some l3 =>
              have := endTag_len he
              simp only [he] at h; cases h; omega
    · intro si acc m l t m' l' h
      cases l with
      | nil => simp [content] at h
      | cons x l =>
        simp only [content] at h
        split at h
        · cases h
        split at h
        · cases h; simp
        split at h
        · cases l with
          | nil => simp at h
          | cons n l1 =>
            simp only at h
            split at h
            · cases h
            cases he : elem f (si ++ dot :: n) m l1 with
            | none => simp [he] at h
            | some r =>
              obtain ⟨m1, l2⟩ := r
              simp only [he] at h
              have := ihe _ _ _ _ _ he
              have := ihc _ _ _ _ _ _ _ h
              simp; omega
        · have := ihc _ _ _ _ _ _ _ h
          simp; omega

theorem parse_fuel (f : Nat) :
    (∀ g scope m l, l.length < f → l.length < g → elem f scope m l = elem g scope m l) ∧
    (∀ g si acc m l, l.length < f → l.length < g →
      content f si acc m l = content g si acc m l) := by
  induction f with
  | zero => constructor <;> intros <;> omega
  | succ f ih =>
    obtain ⟨ihe, ihc⟩ := ih
    constructor
    · intro g scope m l h1 h2
      cases g with
      | zero => omega
      | succ g =>
        simp only [elem]
        cases ha : attrs (idx scope (countOf m scope)) (l.length + 1) (bump m scope) l with
        | none => rfl
        | some r =>
          obtain ⟨m1, b, l1⟩ := r
          have hl := attrs_len _ ha
          cases b with
          | true => rfl
          | false =>
            simp only
            rw [ihc g _ _ _ l1 (by omega) (by omega)]
    · intro g si acc m l h1 h2
      cases g with
      | zero => omega
      | succ g =>
        cases l with
        | nil => rfl
        | cons x l =>
          simp only [List.length_cons] at h1 h2
          simp only [content]
          split
          · rfl
          split
          · rfl
          split
          · cases l with
            | nil => rfl
            | cons n l1 =>
              simp only [List.length_cons] at h1 h2
              simp only
              split
              · rfl
              rw [ihe g _ m l1 (by omega) (by omega)]
              cases he : elem g (si ++ dot :: n) m l1 with
              | none => rfl
              | some r =>
                obtain ⟨m1, l2⟩ := r
                have := (parse_len g).1 _ _ _ _ _ he
                simp only
                exact ihc g _ _ _ _ (by omega) (by omega)
          · exact ihc g _ _ _ _ (by omega) (by omega)

/-- Parsing an element, no bound. -/
def elemR (scope : Str) (m : DB) (l : List Str) : Option (DB × List Str) :=
  elem (l.length + 1) scope m l

/-- Parsing content, no bound. -/
def contentR (si acc : Str) (m : DB) (l : List Str) : Option (Str × DB × List Str) :=
  content (l.length + 1) si acc m l

/-- Parsing attributes, no bound. -/
def attrsR (si : Str) (m : DB) (l : List Str) : Option (DB × Bool × List Str) :=
  attrs si (l.length + 1) m l

theorem elem_eq {f : Nat} {scope : Str} {m : DB} {l : List Str} (h : l.length < f) :
    elem f scope m l = elemR scope m l := (parse_fuel f).1 _ _ _ _ h (by omega)

theorem content_eq {f : Nat} {si acc : Str} {m : DB} {l : List Str} (h : l.length < f) :
    content f si acc m l = contentR si acc m l := (parse_fuel f).2 _ _ _ _ _ h (by omega)

theorem attrs_eq {f : Nat} {si : Str} {m : DB} {l : List Str} (h : l.length < f) :
    attrs si f m l = attrsR si m l := attrs_fuel f _ _ _ h (by omega)

theorem attrsR_gt (si : Str) (m : DB) (l : List Str) :
    attrsR si m ([62] :: l) = some (m, false, l) := rfl

theorem attrsR_slash (si : Str) (m : DB) (l : List Str) :
    attrsR si m ([47, 62] :: l) = some (m, true, l) := rfl

theorem attrsR_space (si : Str) (m : DB) {t : Str} (l : List Str) (ht : spaceTok t = true) :
    attrsR si m (t :: l) = attrsR si m l := by
  have h1 : t ≠ [] := by intro e; subst e; simp [spaceTok] at ht
  have h2 : t ≠ [62] := by intro e; subst e; revert ht; decide
  have h3 : t ≠ [47, 62] := by intro e; subst e; revert ht; decide
  simp only [attrsR, List.length_cons, attrs, if_neg h1, if_neg h2, if_neg h3, ht, if_true]

theorem attrsR_attr (si : Str) (m : DB) {t v : Str} {l l1 l2 : List Str} (h1 : t ≠ [])
    (h2 : t ≠ [62]) (h3 : t ≠ [47, 62]) (h4 : spaceTok t = false)
    (he : attrEq l = some l1) (hv : attrVal l1 = some (v, l2)) :
    attrsR si m (t :: l) = attrsR si (setCon m (si ++ dot :: t) v) l2 := by
  have := attrEq_len he; have := attrVal_len hv
  simp only [attrsR, List.length_cons]
  rw [show attrs si (l.length + 1 + 1) m (t :: l) =
      attrs si (l.length + 1) (setCon m (si ++ dot :: t) v) l2 from by
    simp [attrs, h1, h2, h3, h4, he, hv]]
  exact attrs_eq (by omega)

/-- What follows the attributes of an element that is not empty. -/
def afterContent (scope si : Str) : Option (Str × DB × List Str) → Option (DB × List Str)
  | none => none
  | some (txt, m2, l2) =>
    match endTag scope l2 with
    | none => none
    | some l3 => some (if txt = [] then m2 else setCon m2 si txt, l3)

/-- What follows the attributes of an element. -/
def afterAttrs (scope si : Str) : Option (DB × Bool × List Str) → Option (DB × List Str)
  | none => none
  | some (m1, true, l1) => some (m1, l1)
  | some (m1, false, l1) => afterContent scope si (contentR si [] m1 l1)

theorem elemR_eq (scope : Str) (m : DB) (l : List Str) :
    elemR scope m l = afterAttrs scope (idx scope (countOf m scope))
      (attrsR (idx scope (countOf m scope)) (bump m scope) l) := by
  simp only [elemR, elem, attrsR]
  cases ha : attrs (idx scope (countOf m scope)) (l.length + 1) (bump m scope) l with
  | none => rfl
  | some r =>
    obtain ⟨m1, b, l1⟩ := r
    have hl := attrs_len _ ha
    cases b with
    | true => rfl
    | false =>
      simp only [afterAttrs]
      rw [content_eq hl]
      cases contentR (idx scope (countOf m scope)) [] m1 l1 with
      | none => rfl
      | some r => rfl

theorem contentR_nil (si acc : Str) (m : DB) : contentR si acc m [] = none := rfl

theorem contentR_end (si acc : Str) (m : DB) (l : List Str) :
    contentR si acc m ([60, 47] :: l) = some (acc, m, l) := rfl

theorem contentR_text (si acc : Str) (m : DB) {t : Str} (l : List Str) (h1 : t ≠ [])
    (h2 : t ≠ [60, 47]) (h3 : t ≠ [60]) :
    contentR si acc m (t :: l) = contentR si (acc ++ t) m l := by
  simp [contentR, content, h1, h2, h3]

/-- Content goes on after a child. -/
def afterKid (si acc : Str) : Option (DB × List Str) → Option (Str × DB × List Str)
  | none => none
  | some (m1, l2) => contentR si acc m1 l2

theorem elemR_len {scope : Str} {m m' : DB} {l l' : List Str} (h : elemR scope m l = some (m', l')) :
    l'.length < l.length := (parse_len _).1 _ _ _ _ _ h

theorem contentR_len {si acc t : Str} {m m' : DB} {l l' : List Str}
    (h : contentR si acc m l = some (t, m', l')) : l'.length < l.length :=
  (parse_len _).2 _ _ _ _ _ _ _ h

theorem contentR_kid (si acc : Str) (m : DB) {n : Str} (l : List Str) (hn : n ≠ []) :
    contentR si acc m ([60] :: n :: l) = afterKid si acc (elemR (si ++ dot :: n) m l) := by
  have h1 : contentR si acc m ([60] :: n :: l) =
      (match elem (l.length + 2) (si ++ dot :: n) m l with
        | none => none
        | some (m1, l2) => content (l.length + 2) si acc m1 l2) := by
    simp [contentR, content, hn]
    rfl
  rw [h1, elem_eq (by omega)]
  cases he : elemR (si ++ dot :: n) m l with
  | none => rfl
  | some r =>
    obtain ⟨m1, l2⟩ := r
    have := elemR_len he
    simp only [afterKid]
    exact content_eq (by omega)

theorem contentR_kid_nil (si acc : Str) (m : DB) : contentR si acc m [[60]] = none := rfl

theorem contentR_empty (si acc : Str) (m : DB) (l : List Str) : contentR si acc m ([] :: l) = none := by
  simp [contentR, content]

theorem contentR_kid_empty (si acc : Str) (m : DB) (l : List Str) :
    contentR si acc m ([60] :: [] :: l) = none := by
  simp [contentR, content]

end Verif.Xml
