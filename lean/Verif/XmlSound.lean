import Verif.XmlMain
/-
What a successful parse tells about the text, and texts that are rejected.
-/
namespace Verif.Xml
open OMap EnumKeys
open Verif.Json (JV dot tail)

/-! ### End tags -/

theorem endMatches_iff {p n : Str} (hn : n ≠ []) :
    endMatches p n = true ↔ n <:+ p ∨ n.length = p.length + 1 := by
  constructor
  · intro h
    unfold endMatches at h
    split at h
    · rename_i i hi
      left
      have h1 := List.find?_some hi
      have h2 := List.mem_of_find?_eq_some hi
      simp only [List.mem_reverse, List.mem_range] at h2
      simp only [beq_iff_eq] at h
      rw [List.isPrefixOf_iff_prefix] at h1
      have : n = p.drop i := h1.eq_of_length (by simp; omega)
      rw [this]; exact List.drop_suffix _ _
    · right; simp only [beq_iff_eq] at h; exact h.symm
  · rintro (⟨q, rfl⟩ | h)
    · exact endMatches_suffix q hn
    · unfold endMatches
      have : rfind p n = none := by
        unfold rfind
        rw [List.find?_eq_none]
        intro i _ hp
        rw [List.isPrefixOf_iff_prefix] at hp
        have := hp.length_le
        simp at this; omega
      rw [this]; simp [h]

/-! ### What has been read by a successful parse -/

/-- Tokens of a start tag after the name, up to its end; the flag tells whether this is `/>`. -/
inductive AtS : Bool → List Str → Prop
  | gt : AtS false [[62]]
  | slash : AtS true [[47, 62]]
  | sp {t b l} : spaceTok t = true → AtS b l → AtS b (t :: l)
  | attr {k v b l s1 s2} : k ≠ [] → k ≠ [62] → k ≠ [47, 62] → spaceTok k = false → v ≠ [] →
      spaceTok v = false → SpaceToks s1 → SpaceToks s2 → AtS b l →
      AtS b (k :: (s1 ++ [61] :: (s2 ++ v :: l)))

/-- What is accepted as the name in an end tag: the end of the path of the element or, wrongly,
anything one longer than the path. -/
def CloseOK (path n : Str) : Prop := n ≠ [] ∧ (n <:+ path ∨ n.length = path.length + 1)

/-- The rest of an end tag after the name. -/
def EndS (n : Str) (e : List Str) : Prop :=
  (n = [62] ∧ e = []) ∨ (n ≠ [62] ∧ ∃ j, e = j ++ [[62]] ∧ [62] ∉ j)

mutual
/-- Tokens of an element after its name. -/
inductive ElS : Str → List Str → Prop
  | empty {path a} : AtS true a → ElS path a
  | full {path a i b n e} : AtS false a → BodyS (idx path i) b → CloseOK path n → EndS n e →
      ElS path (a ++ (b ++ [60, 47] :: n :: e))
/-- Tokens of content. -/
inductive BodyS : Str → List Str → Prop
  | nil {si} : BodyS si []
  | text {si t l} : t ≠ [] → t ≠ [60] → t ≠ [60, 47] → BodyS si l → BodyS si (t :: l)
  | kid {si n c l} : n ≠ [] → ElS (si ++ dot :: n) c → BodyS si l → BodyS si ([60] :: n :: (c ++ l))
end

theorem attrEq_sound {l l1 : List Str} (h : attrEq l = some l1) :
    ∃ s, SpaceToks s ∧ l = s ++ [61] :: l1 := by
  induction l with
  | nil => simp [attrEq] at h
  | cons t l ih =>
    simp only [attrEq] at h
    split at h
    · simp at h
    split at h
    · rename_i hs
      obtain ⟨s, h1, h2⟩ := ih h
      refine ⟨t :: s, ?_, by simp [h2]⟩
      intro x hx; rcases List.mem_cons.1 hx with rfl | hx
      · exact hs
      · exact h1 x hx
    split at h
    · rename_i e
      simp only [Option.some.injEq] at h
      subst h; subst e
      exact ⟨[], by intro x hx; simp at hx, rfl⟩
    · simp at h

theorem attrVal_sound {l l1 : List Str} {v : Str} (h : attrVal l = some (v, l1)) :
    ∃ s, SpaceToks s ∧ v ≠ [] ∧ spaceTok v = false ∧ l = s ++ v :: l1 := by
  induction l with
  | nil => simp [attrVal] at h
  | cons t l ih =>
    simp only [attrVal] at h
    split at h
    · simp at h
    rename_i hne
    split at h
    · rename_i hs
      obtain ⟨s, h1, h2, h3, h4⟩ := ih h
      refine ⟨t :: s, ?_, h2, h3, by simp [h4]⟩
      intro x hx; rcases List.mem_cons.1 hx with rfl | hx
      · exact hs
      · exact h1 x hx
    · rename_i hs
      simp only [Option.some.injEq, Prod.mk.injEq] at h
      obtain ⟨rfl, rfl⟩ := h
      exact ⟨[], by intro x hx; simp at hx, hne, by simpa using hs, rfl⟩

theorem attrs_sound {si : Str} (f : Nat) : ∀ (m m1 : DB) (l r : List Str) (b : Bool),
    attrs si f m l = some (m1, b, r) → ∃ c, l = c ++ r ∧ AtS b c := by
  induction f with
  | zero => intro m m1 l r b h; simp [attrs] at h
  | succ f ih =>
    intro m m1 l r b h
    cases l with
    | nil => simp [attrs] at h
    | cons t l =>
      simp only [attrs] at h
      split at h
      · simp at h
      rename_i hne
      split at h
      · rename_i e
        simp only [Option.some.injEq, Prod.mk.injEq] at h
        obtain ⟨-, rfl, rfl⟩ := h; subst e
        exact ⟨[[62]], rfl, .gt⟩
      rename_i hgt
      split at h
      · rename_i e
        simp only [Option.some.injEq, Prod.mk.injEq] at h
        obtain ⟨-, rfl, rfl⟩ := h; subst e
        exact ⟨[[47, 62]], rfl, .slash⟩
      rename_i hsl
      split at h
      · rename_i hs
        obtain ⟨c, rfl, hc⟩ := ih _ _ _ _ _ h
        exact ⟨t :: c, rfl, .sp hs hc⟩
      rename_i hs
      split at h
      · simp at h
      rename_i l1 he
      split at h
      · simp at h
      rename_i v l2 hv
      obtain ⟨s1, a1, rfl⟩ := attrEq_sound he
      obtain ⟨s2, b1, b2, b3, rfl⟩ := attrVal_sound hv
      obtain ⟨c, rfl, hc⟩ := ih _ _ _ _ _ h
      exact ⟨t :: (s1 ++ [61] :: (s2 ++ v :: c)), by simp,
        .attr hne hgt hsl (by simpa using hs) b2 b3 a1 b1 hc⟩

theorem skipEnd_sound {l l1 : List Str} (h : skipEnd l = some l1) :
    ∃ j, l = j ++ [62] :: l1 ∧ [62] ∉ j := by
  induction l with
  | nil => simp [skipEnd] at h
  | cons t l ih =>
    simp only [skipEnd] at h
    split at h
    · simp at h
    split at h
    · rename_i e
      simp only [Option.some.injEq] at h
      subst h; subst e
      exact ⟨[], rfl, by simp⟩
    · rename_i hne
      obtain ⟨j, rfl, h2⟩ := ih h
      exact ⟨t :: j, rfl, by simp [Ne.symm hne, h2]⟩

theorem endTag_sound {scope : Str} {l l1 : List Str} (h : endTag scope l = some l1) :
    ∃ n e, l = n :: (e ++ l1) ∧ CloseOK scope n ∧ EndS n e := by
  cases l with
  | nil => simp [endTag] at h
  | cons t l =>
    simp only [endTag] at h
    split at h
    · simp at h
    rename_i hne
    split at h
    · rename_i hm
      have hc : CloseOK scope t := ⟨hne, (endMatches_iff hne).1 hm⟩
      split at h
      · rename_i e
        simp only [Option.some.injEq] at h
        subst h
        exact ⟨t, [], rfl, hc, .inl ⟨e, rfl⟩⟩
      · rename_i hgt
        obtain ⟨j, rfl, h2⟩ := skipEnd_sound h
        exact ⟨t, j ++ [[62]], by simp, hc, .inr ⟨hgt, j, rfl, h2⟩⟩
    · simp at h

theorem parse_sound (f : Nat) :
    (∀ scope m l m' r, elem f scope m l = some (m', r) → ∃ c, l = c ++ r ∧ ElS scope c) ∧
    (∀ si acc m l t m' r, content f si acc m l = some (t, m', r) →
      ∃ c, l = c ++ [60, 47] :: r ∧ BodyS si c) := by
  induction f with
  | zero => constructor <;> intros <;> simp_all [elem, content]
  | succ f ih =>
    obtain ⟨ihe, ihc⟩ := ih
    constructor
    · intro scope m l m' r h
      simp only [elem] at h
      split at h
      · simp at h
      · rename_i m1 l1 ha
        simp only [Option.some.injEq, Prod.mk.injEq] at h
        obtain ⟨-, rfl⟩ := h
        obtain ⟨c, rfl, hc⟩ := attrs_sound _ _ _ _ _ _ ha
        exact ⟨c, rfl, .empty hc⟩
      · rename_i m1 l1 ha
        obtain ⟨c, rfl, hc⟩ := attrs_sound _ _ _ _ _ _ ha
        split at h
        · simp at h
        · rename_i txt m2 l2 hb
          obtain ⟨b, rfl, hb'⟩ := ihc _ _ _ _ _ _ _ hb
          split at h
          · simp at h
          · rename_i l3 he
            obtain ⟨n, e, rfl, h1, h2⟩ := endTag_sound he
            simp only [Option.some.injEq, Prod.mk.injEq] at h
            obtain ⟨-, rfl⟩ := h
            exact ⟨_, by simp, .full hc hb' h1 h2⟩
    · intro si acc m l t m' r h
      cases l with
      | nil => simp [content] at h
      | cons x l =>
        simp only [content] at h
        split at h
        · simp at h
        rename_i hne
        split at h
        · rename_i e
          simp only [Option.some.injEq, Prod.mk.injEq] at h
          obtain ⟨-, -, rfl⟩ := h
          subst e
          exact ⟨[], rfl, .nil⟩
        rename_i h2
        split at h
        · rename_i e
          subst e
          cases l with
          | nil => simp at h
          | cons n l1 =>
            simp only at h
            split at h
            · simp at h
            rename_i hn
            split at h
            · simp at h
            rename_i m1 l2 he
            obtain ⟨c, rfl, hc⟩ := ihe _ _ _ _ _ he
            obtain ⟨b, rfl, hb⟩ := ihc _ _ _ _ _ _ _ h
            exact ⟨[60] :: n :: (c ++ b), by simp, .kid hn hc hb⟩
        · rename_i h3
          obtain ⟨b, rfl, hb⟩ := ihc _ _ _ _ _ _ _ h
          exact ⟨x :: b, rfl, .text hne h3 h2 hb⟩

/-! ### Appending to what has been read -/

theorem attrEq_app {l l1 : List Str} (h : attrEq l = some l1) (x : List Str) :
    attrEq (l ++ x) = some (l1 ++ x) := by
  obtain ⟨s, h1, rfl⟩ := attrEq_sound h
  simpa using attrEq_spaces h1 (l1 ++ x)

theorem attrVal_app {l l1 : List Str} {v : Str} (h : attrVal l = some (v, l1)) (x : List Str) :
    attrVal (l ++ x) = some (v, l1 ++ x) := by
  obtain ⟨s, h1, h2, h3, rfl⟩ := attrVal_sound h
  simpa using attrVal_spaces h1 h2 h3 (l1 ++ x)

theorem skipEnd_app {l l1 : List Str} (h : skipEnd l = some l1) (x : List Str) :
    skipEnd (l ++ x) = some (l1 ++ x) := by
  induction l with
  | nil => simp [skipEnd] at h
  | cons t l ih =>
    simp only [List.cons_append, skipEnd] at h ⊢
    split at h
    · simp at h
    rename_i h1
    rw [if_neg h1]
    split at h
    · rename_i h2
      rw [if_pos h2]
      simp only [Option.some.injEq] at h; rw [h]
    · rename_i h2
      rw [if_neg h2]; exact ih h

theorem endTag_app {scope : Str} {l l1 : List Str} (h : endTag scope l = some l1) (x : List Str) :
    endTag scope (l ++ x) = some (l1 ++ x) := by
  cases l with
  | nil => simp [endTag] at h
  | cons t l =>
    simp only [List.cons_append, endTag] at h ⊢
    split at h
    · simp at h
    rename_i h1
    rw [if_neg h1]
    split at h
    · rename_i h2
      rw [if_pos h2]
      split at h
      · rename_i h3
        rw [if_pos h3]
        simp only [Option.some.injEq] at h; rw [h]
      · rename_i h3
        rw [if_neg h3]; exact skipEnd_app h x
    · simp at h

theorem attrs_app {si : Str} (f : Nat) : ∀ (k : Nat) (m m1 : DB) (l r : List Str) (b : Bool),
    attrs si f m l = some (m1, b, r) → ∀ x, attrs si (f + k) m (l ++ x) = some (m1, b, r ++ x) := by
  induction f with
  | zero => intro k m m1 l r b h; simp [attrs] at h
  | succ f ih =>
    intro k m m1 l r b h x
    rw [show f + 1 + k = (f + k) + 1 from by omega]
    cases l with
    | nil => simp [attrs] at h
    | cons t l =>
      simp only [List.cons_append, attrs] at h ⊢
      split at h
      · simp at h
      rename_i h1
      rw [if_neg h1]
      split at h
      · rename_i h2
        rw [if_pos h2]
        simp only [Option.some.injEq, Prod.mk.injEq] at h
        obtain ⟨rfl, rfl, rfl⟩ := h; rfl
      rename_i h2
      rw [if_neg h2]
      split at h
      · rename_i h3
        rw [if_pos h3]
        simp only [Option.some.injEq, Prod.mk.injEq] at h
        obtain ⟨rfl, rfl, rfl⟩ := h; rfl
      rename_i h3
      rw [if_neg h3]
      split at h
      · rename_i h4
        rw [if_pos h4]
        exact ih k _ _ _ _ _ h x
      rename_i h4
      rw [if_neg h4]
      split at h
      · simp at h
      rename_i l1 he
      split at h
      · simp at h
      rename_i v l2 hv
      rw [attrEq_app he x]
      simp only
      rw [attrVal_app hv x]
      exact ih k _ _ _ _ _ h x

theorem parse_app (f : Nat) :
    (∀ scope m l m' r, elem f scope m l = some (m', r) →
      ∀ x, elem f scope m (l ++ x) = some (m', r ++ x)) ∧
    (∀ si acc m l t m' r, content f si acc m l = some (t, m', r) →
      ∀ x, content f si acc m (l ++ x) = some (t, m', r ++ x)) := by
  induction f with
  | zero => constructor <;> intros <;> simp_all [elem, content]
  | succ f ih =>
    obtain ⟨ihe, ihc⟩ := ih
    constructor
    · intro scope m l m' r h x
      simp only [elem] at h ⊢
      rw [show (l ++ x).length + 1 = (l.length + 1) + x.length from by simp; omega]
      split at h
      · simp at h
      · rename_i m1 l1 ha
        rw [attrs_app _ _ _ _ _ _ _ ha x]
        simp only [Option.some.injEq, Prod.mk.injEq] at h
        obtain ⟨rfl, rfl⟩ := h; rfl
      · rename_i m1 l1 ha
        rw [attrs_app _ _ _ _ _ _ _ ha x]
        simp only
        split at h
        · simp at h
        · rename_i txt m2 l2 hb
          rw [ihc _ _ _ _ _ _ _ hb x]
          simp only
          split at h
          · simp at h
          · rename_i l3 he
            rw [endTag_app he x]
            simp only [Option.some.injEq, Prod.mk.injEq] at h
            obtain ⟨rfl, rfl⟩ := h; rfl
    · intro si acc m l t m' r h x
      cases l with
      | nil => simp [content] at h
      | cons y l =>
        simp only [List.cons_append, content] at h ⊢
        split at h
        · simp at h
        rename_i h1
        rw [if_neg h1]
        split at h
        · rename_i h2
          rw [if_pos h2]
          simp only [Option.some.injEq, Prod.mk.injEq] at h
          obtain ⟨rfl, rfl, rfl⟩ := h; rfl
        rename_i h2
        rw [if_neg h2]
        split at h
        · rename_i h3
          rw [if_pos h3]
          cases l with
          | nil => simp at h
          | cons n l1 =>
            simp only [List.cons_append] at h ⊢
            split at h
            · simp at h
            rename_i h4
            rw [if_neg h4]
            split at h
            · simp at h
            rename_i m1 l2 he
            rw [ihe _ _ _ _ _ he x]
            exact ihc _ _ _ _ _ _ _ h x
        · rename_i h3
          rw [if_neg h3]
          exact ihc _ _ _ _ _ _ _ h x

theorem elemR_app {scope : Str} {m m' : DB} {l r : List Str} (h : elemR scope m l = some (m', r))
    (x : List Str) : elemR scope m (l ++ x) = some (m', r ++ x) := by
  unfold elemR at h ⊢
  rw [(parse_fuel _).1 ((l ++ x).length + 1) _ _ _ (by omega) (by simp; omega)] at h
  exact (parse_app _).1 _ _ _ _ _ h x

/-! ### Tokens of a text and of a longer one -/

theorem run_append (sgn : Bool) (m : Mode) (u v : Str) :
    run sgn m (u ++ v) = match (run sgn m u).2 with
      | none => run sgn m u
      | some m' => outp (run sgn m u).1 (run sgn m' v) := by
  induction u generalizing m with
  | nil => rfl
  | cons c u ih =>
    simp only [List.cons_append, run]
    split
    · rename_i h; simp [h]
    · rename_i t m' h
      simp only [h, ih]
      split
      · rename_i h2; simp [h2]
      · rename_i m'' h2; simp [h2, outp]

/-- Tokens that are not all blank. -/
def Solid (l : List Str) : Prop := ∃ t ∈ l, spaceTok t = false

theorem parseToks_app {m m' : DB} {fin : Bool} {l : List Str} (hs : Solid l)
    (h : parseToks m fin l = some m') (fin' : Bool) (x : List Str) :
    parseToks m fin' (l ++ x) = some m' := by
  induction l with
  | nil => obtain ⟨t, ht, -⟩ := hs; simp at ht
  | cons t l ih =>
    simp only [List.cons_append, parseToks] at h ⊢
    split at h
    · rename_i h1
      rw [if_pos h1]
      refine ih ?_ h
      obtain ⟨y, hy, hy'⟩ := hs
      rcases List.mem_cons.1 hy with rfl | hy
      · rw [h1] at hy'; simp at hy'
      · exact ⟨y, hy, hy'⟩
    rename_i h1
    rw [if_neg h1]
    split at h
    · rename_i h2
      rw [if_pos h2]; exact h
    rename_i h2
    rw [if_neg h2]
    split at h
    · rename_i h3
      rw [if_pos h3]
      cases l with
      | nil => simp at h
      | cons n l1 =>
        simp only [List.cons_append] at h ⊢
        split at h
        · simp at h
        rename_i h4
        rw [if_neg h4]
        rw [elem_eq (by omega)] at h
        rw [elem_eq (by omega)]
        cases he : elemR n m l1 with
        | none => rw [he] at h; simp at h
        | some r =>
          obtain ⟨m1, r⟩ := r
          rw [he] at h
          rw [elemR_app he x]
          simpa using h
    · simp at h

/-! ### Truncated documents -/

theorem ats_mode {sgn : Bool} {a : List (Str × Str)} {aw : Str} (h : AtsB sgn a aw) :
    ∀ p, ∃ q, (run sgn (.text p) aw).2 = some (.text q) := by
  induction h with
  | nil => intro p; exact ⟨p, rfl⟩
  | @sp c a w hc _ ih =>
    intro p
    obtain ⟨q, h⟩ := ih []
    exact ⟨q, by rw [run_space hc]; exact h⟩
  | @attr c k s1 s2 q v vw a w hc hk hs1 hs2 hq hv hv1 hv2 _ ih =>
    intro p
    obtain ⟨q', h⟩ := ih []
    have hq38 : q ≠ 38 := by rcases hq with rfl | rfl <;> decide
    refine ⟨q', ?_⟩
    rw [run_space hc, run_name hk.1, List.nil_append, run_spaces_eq hs1 _ _ hk.key.1, run_spaces hs2,
      run_cons (t := []) (m' := .str [] q) (by
        rcases hq with rfl | rfl <;> simp [step, stepText, isSpace]), outp_nil,
      run_val hv hq38]
    exact h

theorem spaces_mode {sgn : Bool} {s : Str} (hs : Spaces s) : ∀ p, ∃ q,
    (run sgn (.text p) s).2 = some (.text q) := by
  induction s with
  | nil => intro p; exact ⟨p, rfl⟩
  | cons c s ih =>
    intro p
    obtain ⟨q, h⟩ := ih (fun x hx => hs x (by simp [hx])) []
    exact ⟨q, by rw [run_space (hs c (by simp))]; exact h⟩

theorem elem_last {sgn : Bool} {t : Tree} {e : Str} (h : ElemB sgn okRun t e) :
    ∃ e0 md, e = e0 ++ [62] ∧ (run sgn (.text []) e0).2 = some md ∧
      ((∃ q, md = .text q) ∨ ∃ q, md = .slash q) := by
  cases h with
  | @full n a aw s ks w sp hn ha hc hsp =>
    obtain ⟨al, ha1, ha2⟩ := lexAts ha
    obtain ⟨bl, hb1, hb2⟩ := lexCon hc
    obtain ⟨q, hq⟩ := spaces_mode (sgn := sgn) hsp n
    refine ⟨60 :: (n ++ (aw ++ 62 :: (w ++ 60 :: 47 :: (n ++ sp)))), .text q, by simp, ?_,
      .inl ⟨q, rfl⟩⟩
    rw [show 60 :: (n ++ (aw ++ 62 :: (w ++ 60 :: 47 :: (n ++ sp)))) =
      60 :: (n ++ (aw ++ ([62] ++ (w ++ 60 :: 47 :: (n ++ sp))))) from by simp,
      run_lt, run_lt_name hn, ha2 n [62] [62] _ (fun p' => run_gt p' _), hb2, run_name hn.1,
      List.nil_append]
    exact hq
  | @empty n a aw hn ha =>
    obtain ⟨q, hq⟩ := ats_mode ha n
    refine ⟨60 :: (n ++ (aw ++ [47])), .slash q, by simp, ?_, .inr ⟨q, rfl⟩⟩
    rw [run_lt, run_lt_name hn, run_append, hq]
    simp only [run, step, stepText]
    simp [isSpace, outp]

/-- The tokens of a proper part of an element are a proper part of its tokens. -/
theorem elem_cut {sgn : Bool} {t : Tree} {u v : Str} (h : ElemB sgn okRun t (u ++ v)) (hv : v ≠ []) :
    ∃ l x md, ElemT t l ∧ [60] :: l = (run sgn (.text []) u).1 ++ x ∧ x ≠ [] ∧
      (run sgn (.text []) u).2 = some md := by
  obtain ⟨l, h1, h2⟩ := lexElem h
  obtain ⟨e0, md, h3, h4, h5⟩ := elem_last h
  have hr := h2 []
  rw [List.append_nil] at hr
  have hsome : ∀ a c : Str, u ++ v = a ++ c → ∃ m', (run sgn (.text []) a).2 = some m' ∧
      [60] :: l = (run sgn (.text []) a).1 ++ (run sgn m' c).1 := by
    intro a c he
    rw [he, run_append] at hr
    cases hm : (run sgn (.text []) a).2 with
    | none =>
      rw [hm] at hr
      simp only at hr
      rw [hr] at hm
      simp [outp, run] at hm
    | some m' =>
      rw [hm] at hr
      simp only at hr
      refine ⟨m', rfl, ?_⟩
      have := congrArg Prod.fst hr
      simp [outp, run] at this
      simpa using this.symm
  obtain ⟨v0, rfl⟩ : ∃ v0, v = v0 ++ [62] := by
    rcases List.eq_nil_or_concat v with rfl | ⟨v0, c, rfl⟩
    · exact absurd rfl hv
    · rw [List.concat_eq_append, ← List.append_assoc] at h3
      have := List.append_inj_right' h3 rfl
      exact ⟨v0, by simp at this; simp [this]⟩
  have he0 : e0 = u ++ v0 := by
    rw [← List.append_assoc] at h3
    exact (List.append_cancel_right h3).symm
  subst he0
  obtain ⟨m1, a1, a2⟩ := hsome u (v0 ++ [62]) rfl
  obtain ⟨m2, b1, b2⟩ := hsome (u ++ v0) [62] (by simp)
  refine ⟨l, (run sgn m1 (v0 ++ [62])).1, m1, h1, a2, ?_, a1⟩
  intro hnil
  rw [hnil, List.append_nil] at a2
  have hpre : (run sgn (.text []) (u ++ v0)).1.length ≥ (run sgn (.text []) u).1.length := by
    rw [run_append, a1]; simp [outp]
  have : (run sgn m2 [62]).1.length ≥ 1 := by
    rw [h4] at b1
    simp only [Option.some.injEq] at b1
    subst b1
    rcases h5 with ⟨q, rfl⟩ | ⟨q, rfl⟩
    · simp only [run, step, stepText]; simp [isSpace]
    · simp only [run, step]; simp
  have l1 := congrArg List.length a2
  have l2 := congrArg List.length b2
  simp only [List.length_append] at l2
  omega

theorem elemR_doc {t : Tree} {n : Str} {l : List Str} (h : ElemT t (n :: l)) (m : DB)
    (rest : List Str) : elemR n m (l ++ rest) = some (walk n t m, rest) := by
  cases h with
  | @full n a al s ks bl sp' h1 h2 ha hb hs =>
    have e : al ++ [62] :: (bl ++ [60, 47] :: n :: (sp' ++ [[62]])) ++ rest =
        al ++ ([62] :: (bl ++ ([60, 47] :: (n :: (sp' ++ [62] :: rest))))) := by simp
    rw [e, elemR_eq, attrsR_ats ha, attrsR_gt]
    simp only [afterAttrs]
    rw [contentR_body hb, contentR_end]
    simp only [afterContent]
    rw [endTag_ok (by simpa using endMatches_suffix [] h1) h1 h2 hs]
    simp [walk]
  | @empty n a al h1 ha =>
    have e : al ++ [[47, 62]] ++ rest = al ++ ([47, 62] :: rest) := by simp
    rw [e, elemR_eq, attrsR_ats ha, attrsR_slash]
    simp [afterAttrs, walk, walkL]

theorem parseToks_spaces {m : DB} {fin : Bool} {sp : List Str} (hs : SpaceToks sp) (l : List Str) :
    parseToks m fin (sp ++ l) = parseToks m fin l := by
  induction sp with
  | nil => rfl
  | cons t sp ih =>
    simp only [List.cons_append, parseToks, hs t (by simp), if_true]
    exact ih fun x hx => hs x (by simp [hx])

theorem truncated {sgn : Bool} {t : Tree} {p u v : Str} (hp : Prolog p)
    (h : ElemB sgn okRun t (u ++ v)) (hu : u ≠ []) (hv : v ≠ []) (m : DB) :
    parse sgn m (p ++ u) = none := by
  obtain ⟨l, x, md, h1, h2, h3, h4⟩ := elem_cut h hv
  obtain ⟨⟨sp, h5, h6⟩, -⟩ := lexProlog (sgn := sgn) hp
  obtain ⟨n, r, hn, he⟩ : ∃ n r, XmlName n ∧ u ++ v = 60 :: (n ++ r) := by
    generalize u ++ v = e at h
    cases h with
    | full hn => exact ⟨_, _, hn, rfl⟩
    | empty hn => exact ⟨_, _, hn, rfl⟩
  obtain ⟨u', rfl⟩ : ∃ u', u = 60 :: u' := by
    cases u with
    | nil => exact absurd rfl hu
    | cons a u => simp only [List.cons_append, List.cons.injEq] at he; exact ⟨u, by rw [he.1]⟩
  have hrun : run sgn (.text []) (p ++ 60 :: u') = outp sp (run sgn (.text []) (60 :: u')) := h6 u'
  unfold parse
  simp only [hrun, outp]
  rw [parseToks_spaces h5]
  cases hT : (run sgn (.text []) (60 :: u')).1 with
  | nil =>
    obtain ⟨c, r', rfl, hc1, hc2⟩ := hn.2
    have hc := nameCh_plain (hn.1 c (by simp))
    cases u' with
    | nil => simp [parseToks, run, step, stepText, isSpace, cleanEnd]
    | cons d u' =>
      exfalso
      simp only [List.cons_append, List.cons.injEq] at he
      obtain ⟨-, rfl, -⟩ := he
      rw [run_lt, run_cons (t := [[60]]) (m' := .text [d])
        (by simp [step, hc1, hc2, hc.2.1, stepText_plain hc.1 hc.2.1, flush])] at hT
      simp [outp] at hT
  | cons a l' =>
    rw [hT] at h2
    simp only [List.cons_append, List.cons.injEq] at h2
    obtain ⟨rfl, rfl⟩ := h2
    simp only [parseToks, show spaceTok [60] = false from by decide, Bool.false_eq_true, if_false,
      List.cons_ne_nil, if_true]
    cases l' with
    | nil => rfl
    | cons n' l1 =>
      simp only
      have hn' : n' ≠ [] := by
        simp only [List.cons_append] at h1
        generalize l1 ++ x = y at h1
        cases h1 <;> assumption
      rw [if_neg hn', elem_eq (by omega)]
      cases hel : elemR n' m l1 with
      | none => rfl
      | some r =>
        obtain ⟨m1, r⟩ := r
        have e1 := elemR_app hel x
        have e2 := elemR_doc (n := n') (l := l1 ++ x) h1 m []
        rw [List.append_nil, e1] at e2
        simp at e2
        exact absurd e2.2.2 h3

/-! ### Mismatched end tags -/

/-- Text from the start of an element to somewhere inside it, with the names of the elements that
are open at the end, outermost first. -/
inductive Opened (sgn : Bool) : List Str → Str → Prop
  | one {n a aw s ks w} : XmlName n → AtsB sgn a aw → Con sgn okRun [] s ks w →
      Opened sgn [n] (60 :: (n ++ (aw ++ 62 :: w)))
  | more {n a aw s ks w ns u} : XmlName n → AtsB sgn a aw → Con sgn okRun [] s ks w →
      Opened sgn ns u → Opened sgn (n :: ns) (60 :: (n ++ (aw ++ 62 :: (w ++ u))))

/-- A name without dots at the end of a path is at the end of the last name of the path. -/
theorem suffix_last {q n n' : Str} (hd : dot ∉ n') (hq : q = [] ∨ ∃ q', q = q' ++ [dot])
    (h : n' <:+ q ++ n) : n' <:+ n := by
  by_cases hl : n'.length ≤ n.length
  · exact List.suffix_of_suffix_length_le h ⟨q, rfl⟩ hl
  · exfalso
    obtain ⟨y, hy⟩ := List.suffix_of_suffix_length_le (⟨q, rfl⟩ : n <:+ q ++ n) h (by omega)
    subst hy
    obtain ⟨z, hz⟩ := h
    rw [← List.append_assoc] at hz
    have hz := List.append_cancel_right hz
    rcases hq with rfl | ⟨q', rfl⟩
    · simp only [List.append_eq_nil_iff] at hz
      rw [hz.2] at hl; simp at hl
    · rcases List.eq_nil_or_concat y with rfl | ⟨y', c, rfl⟩
      · simp at hl
      · rw [List.concat_eq_append, ← List.append_assoc] at hz
        have := List.append_inj_right' hz rfl
        simp only [List.cons.injEq, and_true] at this
        exact hd (by rw [List.concat_eq_append, this]; simp)

theorem opened_lex {sgn : Bool} {ns : List Str} {u : Str} (h : Opened sgn ns u) {n' : Str}
    (hn' : XmlName n') {sp : Str} (hsp : Spaces sp) (hbad : ∀ n, ns.getLast? = some n → ¬ n' <:+ n) :
    ∃ n ns' tk, ns = n :: ns' ∧ XmlName n ∧ ∃ u', u = 60 :: (n ++ u') ∧
      (∀ rest, run sgn (.text n) (u' ++ 60 :: 47 :: (n' ++ (sp ++ 62 :: rest))) =
        outp (n :: tk) (run sgn (.text []) rest)) ∧
      ∀ q m x, (q = [] ∨ ∃ q', q = q' ++ [dot]) → n'.length ≤ q.length + ns.flatten.length →
        elemR (q ++ n) m (tk ++ x) = none := by
  induction h with
  | @one n a aw s ks w hn ha hc =>
    obtain ⟨al, ha1, ha2⟩ := lexAts ha
    obtain ⟨bl, hb1, hb2⟩ := lexCon hc
    refine ⟨n, [], al ++ [62] :: (bl ++ [60, 47] :: n' :: ((sp.map fun c => [c]) ++ [[62]])), rfl, hn,
      aw ++ 62 :: w, rfl, fun rest => ?_, fun q m x hq hlen => ?_⟩
    · rw [show (aw ++ 62 :: w) ++ 60 :: 47 :: (n' ++ (sp ++ 62 :: rest)) =
        aw ++ ([62] ++ (w ++ 60 :: 47 :: (n' ++ (sp ++ 62 :: rest)))) from by simp,
        ha2 n [62] [62] _ (fun p' => run_gt p' _), hb2, run_name hn'.1, List.nil_append,
        run_spaces_gt hsp _ _ hn'.key.1]
      simp [outp_outp, flush, hn.key.1]
    · rw [show al ++ [62] :: (bl ++ [60, 47] :: n' :: ((sp.map fun c => [c]) ++ [[62]])) ++ x =
        al ++ ([62] :: (bl ++ ([60, 47] :: (n' :: ((sp.map fun c => [c]) ++ [62] :: x))))) from by simp,
        elemR_eq, attrsR_ats ha1, attrsR_gt]
      simp only [afterAttrs]
      rw [contentR_body hb1, contentR_end]
      simp only [afterContent]
      have hm : endMatches (q ++ n) n' = false := by
        rw [← Bool.not_eq_true, endMatches_iff hn'.key.1]
        rintro (h | h)
        · exact hbad n rfl (suffix_last hn'.key.2.2 hq h)
        · simp at hlen h; omega
      simp [endTag, hn'.key.1, hm]
  | @more n a aw s ks w ns u hn ha hc _ ih =>
    have hne : ns ≠ [] := by rename_i ho; cases ho <;> simp
    obtain ⟨k, ns', tk, rfl, hk, u', rfl, h1, h2⟩ := ih (fun x hx => hbad x (by
      rw [List.getLast?_cons_of_ne_nil hne]; exact hx))
    obtain ⟨al, ha1, ha2⟩ := lexAts ha
    obtain ⟨bl, hb1, hb2⟩ := lexConX hc
    refine ⟨n, k :: ns', al ++ [62] :: (bl ++ [60] :: k :: tk), rfl, hn,
      aw ++ 62 :: (w ++ 60 :: (k ++ u')), rfl, fun rest => ?_, fun q m x hq hlen => ?_⟩
    · rw [show (aw ++ 62 :: (w ++ 60 :: (k ++ u'))) ++ 60 :: 47 :: (n' ++ (sp ++ 62 :: rest)) =
        aw ++ ([62] ++ (w ++ 60 :: (k ++ (u' ++ 60 :: 47 :: (n' ++ (sp ++ 62 :: rest)))))) from by simp,
        ha2 n [62] [62] _ (fun p' => run_gt p' _),
        hb2 _ [[60]] (run sgn (.text k) (u' ++ 60 :: 47 :: (n' ++ (sp ++ 62 :: rest)))) (fun p => by
          rw [run_lt, run_lt_name hk]), h1]
      simp [outp_outp, flush, hn.key.1]
    · rw [show al ++ [62] :: (bl ++ [60] :: k :: tk) ++ x =
        al ++ ([62] :: (bl ++ ([60] :: k :: (tk ++ x)))) from by simp,
        elemR_eq, attrsR_ats ha1, attrsR_gt]
      simp only [afterAttrs]
      rw [contentR_body hb1, contentR_kid _ _ _ _ hk.key.1]
      have := h2 (idx (q ++ n) (countOf m (q ++ n)) ++ [dot])
        (walkL (idx (q ++ n) (countOf m (q ++ n))) ks
          (putAttrs (idx (q ++ n) (countOf m (q ++ n))) a (bump m (q ++ n)))) x (.inr ⟨_, rfl⟩) (by
          simp only [idx, List.flatten_cons, List.length_append, List.length_cons] at hlen ⊢
          omega)
      rw [List.append_assoc, List.singleton_append] at this
      rw [this]
      rfl

theorem mismatched {sgn : Bool} {ns : List Str} {p u : Str} (hp : Prolog p) (h : Opened sgn ns u)
    {n' : Str} (hn' : XmlName n') {sp : Str} (hsp : Spaces sp)
    (hbad : ∀ n, ns.getLast? = some n → ¬ n' <:+ n) (hlen : n'.length ≤ ns.flatten.length) (m : DB)
    (rest : Str) : parse sgn m (p ++ u ++ 60 :: 47 :: (n' ++ (sp ++ 62 :: rest))) = none := by
  obtain ⟨n, ns', tk, rfl, hn, u', rfl, h1, h2⟩ := opened_lex h hn' hsp hbad
  obtain ⟨⟨s1, h5, h6⟩, -⟩ := lexProlog (sgn := sgn) hp
  have hrun : run sgn (.text []) (p ++ 60 :: (n ++ u') ++ 60 :: 47 :: (n' ++ (sp ++ 62 :: rest))) =
      outp (s1 ++ [60] :: n :: tk) (run sgn (.text []) rest) := by
    rw [List.append_assoc, List.cons_append, h6, List.append_assoc, run_lt, run_lt_name hn, h1]
    simp [outp_outp, flush]
  unfold parse
  simp only [hrun, outp]
  rw [List.append_assoc, parseToks_spaces h5]
  simp only [List.cons_append, parseToks, show spaceTok [60] = false from by decide,
    Bool.false_eq_true, if_false, List.cons_ne_nil, if_true, if_neg hn.key.1]
  rw [elem_eq (by omega)]
  have := h2 [] m (run sgn (.text []) rest).1 (.inl rfl) (by simpa using hlen)
  rw [List.nil_append] at this
  rw [this]
  rfl

end Verif.Xml
