import Verif.TypeName
import Verif.Emit
import Verif.Props.Bases
import Verif.XmlKeys
/-
C80: the name of a type identifies it.
-/
namespace Verif.TName
open Verif.Tok (Str b)
open Verif.Bases (idChar Param Part dots paramList sepBy)
open Verif.Xml (dec)

/-! ### Specification: the parameters of class templates -/

/-- A parameter that is a type, or a pack of types. -/
def isType (p : Param) : Prop := p.kind = [.word (b "class")] ∨ p.kind = [.word (b "typename")]

instance (p : Param) : Decidable (isType p) :=
  match h : p.kind with
  | [.word w] => if h' : w = b "class" ∨ w = b "typename" then .isTrue (by simpa [isType, h] using h')
                 else .isFalse (by simpa [isType, h] using h')
  | [] => .isFalse (by simp [isType, h])
  | .punct _ :: _ => .isFalse (by simp [isType, h])
  | .group _ :: _ => .isFalse (by simp [isType, h])
  | .word _ :: _ :: _ => .isFalse (by simp [isType, h])

/-- What can be read: identifiers without `template` in them for types; for other parameters, a text without `class`,
`typename` and `template`. -/
structure Fine (p : Param) : Prop where
  name : p.name ≠ [] ∧ ∀ c ∈ p.name, idChar c = true
  templ : within (b "template") p.text = false
  value : ¬ isType p → within (b "class") p.text = false ∧ within (b "typename") p.text = false ∧ ∀ c ∈ p.text, c ≠ 34 ∧ c ≠ 92 ∧ c ≠ 10

/-- The name of an instance has this for the parameter. -/
def shown (env : Bool → Str → Option Str) (p : Param) : Str :=
  if isType p then (env p.pack p.name).getD [] ++ [32] else p.text

/-! ### Proofs -/

private theorem prefix_space (p : Str) (hp : 32 ∉ p) : ∀ (u v : Str), p.isPrefixOf (u ++ 32 :: v) = p.isPrefixOf u := by
  induction p with
  | nil => simp
  | cons c p ih =>
    intro u v
    simp only [List.mem_cons, not_or] at hp
    cases u with
    | nil => simp [List.isPrefixOf, Ne.symm hp.1]
    | cons d u => simp only [List.cons_append, List.isPrefixOf, ih hp.2]

private theorem within_space (p : Str) (hp : 32 ∉ p) (h0 : p ≠ []) : ∀ (u v : Str), within p (u ++ 32 :: v) = (within p u || within p v) := by
  intro u v
  induction u with
  | nil =>
    cases p with
    | nil => simp at h0
    | cons c p =>
      simp only [List.mem_cons, not_or] at hp
      simp [within, List.isPrefixOf, Ne.symm hp.1]
  | cons d u ih =>
    rw [List.cons_append, within, ih, within, ← List.cons_append, prefix_space p hp]
    simp [Bool.or_assoc]

private theorem cut_space (u v : Str) (h1 : within (b "class") u = false) (h2 : within (b "typename") u = false) :
    cut (u ++ 32 :: v) = (u ++ 32 :: (cut v).1, (cut v).2) := by
  induction u with
  | nil =>
    have : ((b "class").isPrefixOf (32 :: v) || (b "typename").isPrefixOf (32 :: v)) = false := by
      have e1 : b "class" = 99 :: b "lass" := by decide
      have e2 : b "typename" = 116 :: b "ypename" := by decide
      rw [e1, e2]
      simp [List.isPrefixOf]
    simp [cut, this]
  | cons c u ih =>
    simp only [within, Bool.or_eq_false_iff] at h1 h2
    rw [List.cons_append, cut, ih h1.2 h2.2, ← List.cons_append, prefix_space _ (by decide), prefix_space _ (by decide), h1.1, h2.1]
    simp

/-- A text that ends in a space and has no `class` or `typename` in it. -/
private def Plain (s : Str) : Prop := ∃ u, s = u ++ [32] ∧ within (b "class") u = false ∧ within (b "typename") u = false

private theorem Plain.cut {s : Str} (h : Plain s) (v : Str) : cut (s ++ v) = (s ++ (cut v).1, (cut v).2) := by
  obtain ⟨u, rfl, h1, h2⟩ := h
  simp [cut_space u v h1 h2]

private theorem Plain.append {s t : Str} (hs : Plain s) (ht : Plain t) : Plain (s ++ t) := by
  obtain ⟨u, rfl, h1, h2⟩ := hs
  obtain ⟨v, rfl, h3, h4⟩ := ht
  refine ⟨u ++ 32 :: v, by simp, ?_, ?_⟩
  · rw [within_space _ (by decide) (by decide), h1, h3]; rfl
  · rw [within_space _ (by decide) (by decide), h2, h4]; rfl

private theorem plain_param {p : Param} (h : Fine p) (ht : ¬ isType p) : Plain p.text := by
  obtain ⟨h1, h2, _⟩ := h.value ht
  refine ⟨(p.kind.map Part.text).flatten ++ dots p.pack ++ p.name, rfl, ?_, ?_⟩
  · have := within_space (b "class") (by decide) (by decide) ((p.kind.map Part.text).flatten ++ dots p.pack ++ p.name) []
    rw [show (p.kind.map Part.text).flatten ++ dots p.pack ++ p.name ++ 32 :: [] = p.text from rfl, h1] at this
    simp at this
    simpa using this.1
  · have := within_space (b "typename") (by decide) (by decide) ((p.kind.map Part.text).flatten ++ dots p.pack ++ p.name) []
    rw [show (p.kind.map Part.text).flatten ++ dots p.pack ++ p.name ++ 32 :: [] = p.text from rfl, h2] at this
    simp at this
    simpa using this.1

private theorem grab_ident (x : Str) (hx : ∀ c ∈ x, idChar c = true) (v : Str) : grab 0 (x ++ 32 :: v) = (x, 32 :: v) := by
  induction x with
  | nil => simp [grab]; decide
  | cons c x ih =>
    have hc := hx c (.head _)
    have h60 : c ≠ 60 := by rintro rfl; exact absurd hc (by decide)
    have h62 : c ≠ 62 := by rintro rfl; exact absurd hc (by decide)
    rw [List.cons_append, grab, if_neg h60, if_neg h62, if_pos (.inl hc), ih fun d hd => hx d (.tail _ hd)]

private theorem ident_dot {c : UInt8} (h : idChar c = true) : spaceDot c = false ∧ space c = false ∧ c ≠ 46 ∧ c ≠ 32 ∧ c ≠ 34 := by
  have h1 : c ≠ 32 := by rintro rfl; exact absurd h (by decide)
  have h2 : c ≠ 9 := by rintro rfl; exact absurd h (by decide)
  have h3 : c ≠ 46 := by rintro rfl; exact absurd h (by decide)
  have h4 : c ≠ 34 := by rintro rfl; exact absurd h (by decide)
  simp [spaceDot, space, h1, h2, h3, h4]

private theorem loop_end (pre : Str) (h : Plain pre) (n : Nat) (hn : 0 < n) : tnLoop n pre = some pre := by
  cases n with
  | zero => omega
  | succ n =>
    have := h.cut []
    simp only [List.append_nil, cut] at this
    cases pre with
    | nil => rfl
    | cons c pre =>
      rw [tnLoop]
      · simp [this]
      · simp

private theorem loop_type (pre : Str) (h : Plain pre) (p : Param) (hp : Fine p) (ht : isType p) (v : Str) (n : Nat) :
    tnLoop (n + 1) (pre ++ p.text ++ v) = (tnLoop n (32 :: v)).map fun t => pre ++ call p.pack p.name ++ t := by
  have key : ∀ w : Str, w = b "class" ∨ w = b "typename" → cut (w ++ [32] ++ (dots p.pack ++ p.name ++ 32 :: v)) =
      ([], w ++ [32] ++ (dots p.pack ++ p.name ++ 32 :: v)) ∧
      (w ++ [32] ++ (dots p.pack ++ p.name ++ 32 :: v)).dropWhile (fun c => !spaceDot c) = 32 :: (dots p.pack ++ p.name ++ 32 :: v) := by
    rintro w (rfl | rfl)
    · refine ⟨?_, ?_⟩
      · have e : b "class" = 99 :: b "lass" := by decide
        rw [e]
        simp only [List.cons_append]
        rw [cut]
        simp [e]
      · have e : b "class" = [99, 108, 97, 115, 115] := by decide
        simp [e, List.dropWhile, spaceDot]
    · refine ⟨?_, ?_⟩
      · have e : b "typename" = 116 :: b "ypename" := by decide
        rw [e]
        simp only [List.cons_append]
        rw [cut]
        simp [e]
      · have e : b "typename" = [116, 121, 112, 101, 110, 97, 109, 101] := by decide
        simp [e, List.dropWhile, spaceDot]
  obtain ⟨w, hw, e⟩ : ∃ w, (w = b "class" ∨ w = b "typename") ∧ p.text ++ v = w ++ [32] ++ (dots p.pack ++ p.name ++ 32 :: v) := by
    rcases ht with h | h
    · exact ⟨_, .inl rfl, by simp [Param.text, h, Part.text]⟩
    · exact ⟨_, .inr rfl, by simp [Param.text, h, Part.text]⟩
  obtain ⟨k1, k2⟩ := key w hw
  obtain ⟨c, x, hx⟩ : ∃ c x, p.name = c :: x := by
    cases hn : p.name with
    | nil => exact absurd hn hp.name.1
    | cons c x => exact ⟨c, x, rfl⟩
  have hc := ident_dot (hp.name.2 c (by simp [hx]))
  have e2 : (32 :: (dots p.pack ++ p.name ++ 32 :: v)).dropWhile space = dots p.pack ++ p.name ++ 32 :: v := by
    have h0 : space 32 = true := by decide
    have h1 : space 46 = false := by decide
    cases hpk : p.pack
    · rw [List.dropWhile_cons_of_pos h0, dots, if_neg (by simp), hx]
      exact List.dropWhile_cons_of_neg (by simp [hc.2.1])
    · rw [List.dropWhile_cons_of_pos h0, dots, if_pos rfl]
      exact List.dropWhile_cons_of_neg (by simp [h1])
  have e3 : (dots p.pack ++ p.name ++ 32 :: v).dropWhile spaceDot = p.name ++ 32 :: v := by
    have h1 : spaceDot 46 = true := by decide
    have h2 : (p.name ++ 32 :: v).dropWhile spaceDot = p.name ++ 32 :: v := by
      rw [hx]
      exact List.dropWhile_cons_of_neg (by simp [hc.1])
    cases hpk : p.pack
    · simpa [dots] using h2
    · simp only [dots, if_true, List.cons_append, List.nil_append]
      rw [List.dropWhile_cons_of_pos h1, List.dropWhile_cons_of_pos h1, List.dropWhile_cons_of_pos h1, h2]
  have e4 : (b "...").isPrefixOf (dots p.pack ++ p.name ++ 32 :: v) = p.pack := by
    have : b "..." = [46, 46, 46] := by decide
    rw [this]
    cases hpk : p.pack
    · simp [dots, hx, List.isPrefixOf, Ne.symm hc.2.2.1]
    · simp [dots, List.isPrefixOf]
  have hcut : cut (pre ++ p.text ++ v) = (pre, p.text ++ v) := by
    rw [List.append_assoc, h.cut, e, k1]
    simp
  obtain ⟨d, s, hs⟩ : ∃ d s, pre ++ p.text ++ v = d :: s := by
    obtain ⟨u, rfl, _⟩ := h
    cases u <;> exact ⟨_, _, rfl⟩
  rw [hs] at hcut ⊢
  rw [tnLoop]
  · simp only [hcut]
    rw [e, k2]
    simp only
    have ne : dots p.pack ++ p.name ++ 32 :: v ≠ [] := by simp
    have ne2 : p.name ++ 32 :: v ≠ [] := by simp
    split
    · rename_i h; rw [e2] at h; exact absurd h ne
    · rw [e2, e3, e4]
      split
      · rename_i h; exact absurd h ne2
      · rw [grab_ident _ hp.name.2]
  · simp

/-! The list of parameters, in a form that is easier to follow -/

private def rest : List Param → Str
  | [] => [62, 32]
  | q :: r => [44, 32] ++ q.text ++ rest r

private def put (p : Param) : Str := if isType p then call p.pack p.name ++ [32] else p.text

private def outRest : List Param → Str
  | [] => [62, 32]
  | q :: r => [44, 32] ++ put q ++ outRest r

private theorem loop_run (ps : List Param) : ∀ (p : Param), (∀ q ∈ p :: ps, Fine q) → ∀ (pre : Str), Plain pre → ∀ n, (pre ++ p.text ++ rest ps).length < n →
    tnLoop n (pre ++ p.text ++ rest ps) = some (pre ++ put p ++ outRest ps) := by
  have comma : Plain [44, 32] := ⟨[44], rfl, by decide, by decide⟩
  have close : Plain [62, 32] := ⟨[62], rfl, by decide, by decide⟩
  induction ps with
  | nil =>
    intro p hp pre hpre n hn
    by_cases ht : isType p
    · cases n with
      | zero => omega
      | succ n =>
        rw [loop_type pre hpre p (hp p (.head _)) ht]
        have : Plain (32 :: rest []) := ⟨[32, 62], rfl, by decide, by decide⟩
        rw [loop_end _ this n (by simp [rest] at hn ⊢; omega)]
        simp [put, ht, outRest, rest]
    · have := (hpre.append (plain_param (hp p (.head _)) ht)).append close
      rw [show rest [] = [62, 32] from rfl, loop_end _ this n (by omega)]
      simp [put, ht, outRest]
  | cons q r ih =>
    intro p hp pre hpre n hn
    have hq : ∀ x ∈ q :: r, Fine x := fun x hx => hp x (.tail _ hx)
    by_cases ht : isType p
    · cases n with
      | zero => omega
      | succ n =>
        rw [loop_type pre hpre p (hp p (.head _)) ht]
        have e : 32 :: rest (q :: r) = [32, 44, 32] ++ q.text ++ rest r := by simp [rest]
        rw [e, ih q hq [32, 44, 32] ⟨[32, 44], rfl, by decide, by decide⟩ n (by
          have : 0 < p.name.length := List.length_pos_iff.2 (hp p (.head _)).name.1
          have : 1 < p.text.length := by simp only [Param.text, List.length_append, List.length_singleton]; omega
          simp [rest] at hn ⊢; omega)]
        simp [put, ht, outRest]
    · have := (hpre.append (plain_param (hp p (.head _)) ht)).append comma
      have e : pre ++ p.text ++ rest (q :: r) = (pre ++ p.text ++ [44, 32]) ++ q.text ++ rest r := by simp [rest]
      rw [e, ih q hq _ this n (by rw [← e]; exact hn)]
      simp [put, ht, outRest]

private theorem paramList_rest (p : Param) (ps : List Param) : paramList (p :: ps) = [60, 32] ++ p.text ++ rest ps := by
  have : ∀ (ps : List Param) (p : Param), sepBy [44, 32] ((p :: ps).map Param.text) ++ [62, 32] = p.text ++ rest ps := by
    intro ps
    induction ps with
    | nil => intro p; rfl
    | cons q r ih =>
      intro p
      have := ih q
      simp only [List.map_cons, sepBy, List.append_assoc] at this ⊢
      rw [this]
      simp [rest]
  simp only [paramList, List.append_assoc]
  rw [this]

private theorem within_close (p : Str) (hp : 32 ∉ p) (h0 : p ≠ []) {s : Str} (u : Str) (hs : s = u ++ [32]) (v : Str) :
    within p (s ++ v) = (within p s || within p v) := by
  subst hs
  rw [List.append_assoc, List.singleton_append, within_space p hp h0, within_space p hp h0]
  cases p with
  | nil => exact absurd rfl h0
  | cons c p => simp [within]

private theorem no_template (ps : List Param) : ∀ p, (∀ q ∈ p :: ps, Fine q) → within (b "template") (p.text ++ rest ps) = false := by
  induction ps with
  | nil =>
    intro p hp
    rw [within_close (b "template") (by decide) (by decide) (s := p.text) _ rfl, (hp p (.head _)).templ]
    decide
  | cons q r ih =>
    intro p hp
    rw [within_close (b "template") (by decide) (by decide) (s := p.text) _ rfl, (hp p (.head _)).templ, rest, List.append_assoc,
      within_close (b "template") (by decide) (by decide) (s := [44, 32]) [44] rfl,
      ih q fun x hx => hp x (.tail _ hx)]
    decide

private theorem templ_eq (p : Param) (ps : List Param) (h : ∀ q ∈ p :: ps, Fine q) :
    tnTempl (paramList (p :: ps)) = some ([60, 32] ++ put p ++ outRest ps) := by
  have h1 : within (b "template") (paramList (p :: ps)) = false := by
    rw [paramList_rest, List.append_assoc, within_close (b "template") (by decide) (by decide) (s := [60, 32]) [60] rfl, no_template ps p h]
    decide
  rw [tnTempl, if_neg (by simp [h1]), paramList_rest, loop_run ps p h [60, 32] ⟨[60], rfl, by decide, by decide⟩ _ (Nat.lt_succ_self _)]

private theorem value_lit (env : Bool → Str → Option Str) (u : Str) (hu : ∀ c ∈ u, c ≠ 34 ∧ c ≠ 92 ∧ c ≠ 10) (v : Str) : ∀ n, (u ++ v).length < n →
    ∃ m, v.length < m ∧ m ≤ n ∧ value env n (u ++ v) = (value env m v).map (u ++ ·) := by
  induction u with
  | nil => intro n hn; exact ⟨n, hn, Nat.le_refl _, by simp⟩
  | cons c u ih =>
    intro n hn
    cases n with
    | zero => simp at hn
    | succ n =>
      obtain ⟨h1, h2, h3⟩ := hu c (.head _)
      obtain ⟨m, hm, hmn, e⟩ := ih (fun d hd => hu d (.tail _ hd)) n (by simp at hn ⊢; omega)
      refine ⟨m, hm, by omega, ?_⟩
      rw [List.cons_append, value, if_neg h1, if_neg (by simp [h2, h3]), e]
      simp [Option.map_map, Function.comp_def]

private theorem value_call (env : Bool → Str → Option Str) (pack : Bool) (x : Str) (h0 : x ≠ []) (hx : ∀ c ∈ x, idChar c = true) (v : Str) (n : Nat) (t : Str)
    (ht : env pack x = some t) : value env (n + 1) (call pack x ++ v) = (value env n v).map (t ++ ·) := by
  have tw : ∀ (c : UInt8) (r : Str), idChar c = false → (x ++ c :: r).takeWhile idChar = x ∧ (x ++ c :: r).dropWhile idChar = c :: r := by
    intro c r hc
    have : ∀ x : Str, (∀ c ∈ x, idChar c = true) → (x ++ c :: r).takeWhile idChar = x ∧ (x ++ c :: r).dropWhile idChar = c :: r := by
      intro x
      induction x with
      | nil => intro _; simp [List.takeWhile, List.dropWhile, hc]
      | cons d x ih =>
        intro h
        obtain ⟨h1, h2⟩ := ih fun e he => h e (.tail _ he)
        simp [List.takeWhile, List.dropWhile, h d (.head _), h1, h2]
    exact this x hx
  cases pack with
  | true =>
    have e1 : b "\"+varTn<" = 34 :: b "+varTn<" := by decide
    have e2 : b "...>()+\"" = 46 :: b "..>()+\"" := by decide
    have e3 : call true x ++ v = 34 :: (b "+varTn<" ++ (x ++ 46 :: (b "..>()+\"" ++ v))) := by simp [call, e1, e2]
    have hp : (b "+varTn<").isPrefixOf (b "+varTn<" ++ (x ++ 46 :: (b "..>()+\"" ++ v))) = true := by simp
    have hd : (b "+varTn<" ++ (x ++ 46 :: (b "..>()+\"" ++ v))).drop 7 = x ++ 46 :: (b "..>()+\"" ++ v) := List.drop_left' (by decide)
    obtain ⟨t1, t2⟩ := tw 46 (b "..>()+\"" ++ v) (by decide)
    rw [e3, value, if_pos rfl]
    simp only [hp, if_true, hd, true_or, t1, t2]
    have hc : (b "...>()+\"").isPrefixOf (46 :: (b "..>()+\"" ++ v)) = true := by rw [e2]; simp
    have hl : (46 :: (b "..>()+\"" ++ v)).drop (b "...>()+\"").length = v := by
      rw [← List.cons_append, ← e2]; exact List.drop_left' rfl
    rw [if_pos ⟨h0, hc⟩, ht, hl]
    cases value env n v <;> rfl
  | false =>
    have e1 : b "\"+typeName<" = 34 :: b "+typeName<" := by decide
    have e2 : b ">()+\"" = 62 :: b "()+\"" := by decide
    have e3 : call false x ++ v = 34 :: (b "+typeName<" ++ (x ++ 62 :: (b "()+\"" ++ v))) := by simp [call, e1, e2]
    have hp : (b "+typeName<").isPrefixOf (b "+typeName<" ++ (x ++ 62 :: (b "()+\"" ++ v))) = true := by simp
    have hp' : (b "+varTn<").isPrefixOf (b "+typeName<" ++ (x ++ 62 :: (b "()+\"" ++ v))) = false := by
      have h1 : b "+varTn<" = 43 :: 118 :: b "arTn<" := by decide
      have h2 : b "+typeName<" = 43 :: 116 :: b "ypeName<" := by decide
      rw [h1, h2]; simp [List.isPrefixOf]
    have hd : (b "+typeName<" ++ (x ++ 62 :: (b "()+\"" ++ v))).drop 10 = x ++ 62 :: (b "()+\"" ++ v) := List.drop_left' (by decide)
    obtain ⟨t1, t2⟩ := tw 62 (b "()+\"" ++ v) (by decide)
    rw [e3, value, if_pos rfl]
    simp only [hp, hp', if_false, hd, or_true, t1, t2, Bool.false_eq_true, if_true]
    have hc : (b ">()+\"").isPrefixOf (62 :: (b "()+\"" ++ v)) = true := by rw [e2]; simp
    have hl : (62 :: (b "()+\"" ++ v)).drop (b ">()+\"").length = v := by
      rw [← List.cons_append, ← e2]; exact List.drop_left' rfl
    rw [if_pos ⟨h0, hc⟩, ht, hl]
    cases value env n v <;> rfl

private def showRest (env : Bool → Str → Option Str) : List Param → Str
  | [] => [62, 32]
  | q :: r => [44, 32] ++ shown env q ++ showRest env r

private theorem value_put (env : Bool → Str → Option Str) (p : Param) (hp : Fine p) (he : isType p → (env p.pack p.name).isSome = true) (v : Str) (n : Nat)
    (hn : (put p ++ v).length < n) : ∃ m, v.length < m ∧ value env n (put p ++ v) = (value env m v).map (shown env p ++ ·) := by
  by_cases ht : isType p
  · obtain ⟨t, et⟩ := Option.isSome_iff_exists.1 (he ht)
    have e : put p ++ v = call p.pack p.name ++ ([32] ++ v) := by simp [put, ht]
    rw [e] at hn ⊢
    cases n with
    | zero => omega
    | succ n =>
      rw [value_call env _ _ hp.name.1 hp.name.2 _ n t et]
      obtain ⟨m, hm, _, e⟩ := value_lit env [32] (by decide) v n (by
        have : 0 < (call p.pack p.name).length := by
          unfold call
          split
          · have : b "\"+varTn<" = 34 :: b "+varTn<" := by decide
            rw [this]; simp
          · have : b "\"+typeName<" = 34 :: b "+typeName<" := by decide
            rw [this]; simp
        simp only [List.length_append] at hn ⊢; omega)
      refine ⟨m, hm, ?_⟩
      rw [e, shown, if_pos ht, et]
      simp [Option.map_map, Function.comp_def]
  · obtain ⟨m, hm, _, e⟩ := value_lit env p.text (hp.value ht).2.2 v n (by simpa [put, ht] using hn)
    refine ⟨m, hm, ?_⟩
    rw [put, if_neg ht, e, shown, if_neg ht]

private theorem value_rest (env : Bool → Str → Option Str) (ps : List Param) (h : ∀ p ∈ ps, Fine p)
    (he : ∀ p ∈ ps, isType p → (env p.pack p.name).isSome = true) : ∀ n, (outRest ps).length < n → value env n (outRest ps) = some (showRest env ps) := by
  induction ps with
  | nil =>
    intro n hn
    simp only [outRest] at hn ⊢
    obtain ⟨m, hm, _, e⟩ := value_lit env [62, 32] (by decide) [] n hn
    rw [List.append_nil] at e
    rw [e]
    cases m with
    | zero => simp at hm
    | succ m => simp [value, showRest]
  | cons q r ih =>
    intro n hn
    simp only [outRest, List.append_assoc] at hn ⊢
    obtain ⟨m, hm, _, e⟩ := value_lit env [44, 32] (by decide) (put q ++ outRest r) n hn
    obtain ⟨k, hk, e'⟩ := value_put env q (h q (.head _)) (he q (.head _)) (outRest r) m hm
    rw [e, e', ih (fun p hp => h p (.tail _ hp)) (fun p hp => he p (.tail _ hp)) k hk]
    simp [showRest]

private theorem sep_show (env : Bool → Str → Option Str) (ps : List Param) : ∀ p : Param,
    sepBy [44, 32] ((p :: ps).map (shown env)) ++ [62, 32] = shown env p ++ showRest env ps := by
  induction ps with
  | nil => intro p; rfl
  | cons q r ih =>
    intro p
    have := ih q
    simp only [List.map_cons, sepBy, List.append_assoc] at this ⊢
    rw [this]
    simp [showRest]

/-- The name of an instance of a class template, as written by the generator, has the name of the argument in place of each
type parameter; a parameter of another kind is copied from the declaration. -/
theorem C80_generated_partial (p : Param) (ps : List Param) (h : ∀ q ∈ p :: ps, Fine q) (env : Bool → Str → Option Str)
    (he : ∀ q ∈ p :: ps, isType q → (env q.pack q.name).isSome = true) :
    ((tnTempl (paramList (p :: ps))).bind fun e => value env (e.length + 1) e) =
      some ([60, 32] ++ sepBy [44, 32] ((p :: ps).map (shown env)) ++ [62, 32]) := by
  rw [templ_eq p ps h, Option.bind_some]
  obtain ⟨m, hm, _, e⟩ := value_lit env [60, 32] (by decide) (put p ++ outRest ps) _ (Nat.lt_succ_self _)
  obtain ⟨k, hk, e'⟩ := value_put env p (h p (.head _)) (he p (.head _)) (outRest ps) m hm
  rw [List.append_assoc, e, e', value_rest env ps (fun p hp => h p (.tail _ hp)) (fun p hp => he p (.tail _ hp)) k hk, List.append_assoc, sep_show]
  simp

/-! ### Types: specification -/

/-- What is bound to the name of a parameter. -/
def assoc : List Param → List Str → Str → Option Str
  | p :: ps, a :: as, x => if p.name = x then some a else assoc ps as x
  | _, _, _ => none

/-- The class templates declared: for each qualified name, the parameters. -/
def world (params : List Str → List Param) : World := ⟨fun p => paramList (params p), fun p args _ x => assoc (params p) args x⟩

/-- A qualified name. -/
def Path (p : List Str) : Prop := p ≠ [] ∧ ∀ w ∈ p, w ≠ [] ∧ ∀ c ∈ w, idChar c = true

/-- Neither pointer, reference nor array, and not `const`. -/
def Core : Ty → Prop
  | .fund _ | .cls _ | .lib _ _ _ | .sized _ _ _ | .user _ _ _ => True
  | _ => False

/-- The types considered: `const` on a core only; the default allocators and comparisons; templates of types only. -/
inductive Ok (params : List Str → List Param) : Ty → Prop
  | fund (f : Fund) : Ok params (.fund f)
  | cls (p : List Str) : Path p → Ok params (.cls p)
  | lib (l : Lib) (args : List Ty) : l ≠ .function → args ≠ [] → (∀ t ∈ args, Ok params t) → Ok params (.lib l args [])
  | sized (l : Sized) (t : Ty) (n : Nat) : Ok params t → Ok params (.sized l t n)
  | user (p : List Str) (args : List Ty) : Path p → (∀ q ∈ params p, Fine q ∧ isType q ∧ q.pack = false) → ((params p).map Param.name).Nodup →
      args.length = (params p).length → args ≠ [] → (∀ t ∈ args, Ok params t) → Ok params (.user p args [])
  | const (t : Ty) : Core t → Ok params t → Ok params (.const t)
  | ptr (t : Ty) : Ok params t → Ok params (.ptr t)
  | ref (t : Ty) : Ok params t → Ok params (.ref t)
  | arr (t : Ty) (n : Nat) : Ok params t → Ok params (.arr t n)

/-! ### Types: proofs -/

private def rm (s : Str) : Str := s.filter (· != 32)

private theorem rm_append (x y : Str) : rm (x ++ y) = rm x ++ rm y := by simp [rm]

private theorem rm_id {x : Str} (h : ∀ c ∈ x, c ≠ 32) : rm x = x := by
  rw [rm, List.filter_eq_self]
  intro c hc
  simpa using h c hc

mutual
  private def sq : Ty → Str
    | .fund f => rm f.text
    | .cls p => qualified p
    | .lib l args _ => l.text ++ 60 :: (comma (sqs args) ++ [62])
    | .sized l t n => l.text ++ 60 :: (sq t ++ 44 :: (dec n ++ [62]))
    | .user p args _ => qualified p ++ 60 :: (comma (sqs args) ++ [62])
    | .const t => b "const" ++ sq t
    | .ptr t => sq t ++ [42]
    | .ref t => sq t ++ [38]
    | .arr t n => sq t ++ 91 :: (dec n ++ [93])
    | _ => []
  private def sqs : List Ty → List Str
    | [] => []
    | t :: r => sq t :: sqs r
end

private theorem names_map (w : World) (l : List Ty) : names w l = l.map (name w) := by
  induction l with
  | nil => rw [names]; rfl
  | cons t l ih => rw [names, ih]; rfl

private theorem sqs_map (l : List Ty) : sqs l = l.map sq := by
  induction l with
  | nil => rw [sqs]; rfl
  | cons t l ih => rw [sqs, ih]; rfl

private theorem path_chars {p : List Str} (h : Path p) : ∀ c ∈ qualified p, idChar c = true ∨ c = 58 := by
  intro c hc
  obtain ⟨w, hw, hc⟩ := List.mem_flatMap.1 hc
  rcases List.mem_append.1 hc with hc | hc
  · have : b "::" = [58, 58] := by decide
    rw [this] at hc
    simp at hc
    exact .inr hc
  · exact .inl ((h.2 w hw).2 c hc)

private theorem path_space {p : List Str} (h : Path p) : ∀ c ∈ qualified p, c ≠ 32 := by
  intro c hc
  rcases path_chars h c hc with h | rfl
  · exact (ident_dot h).2.2.2.1
  · decide

private theorem dec_space (n : Nat) : ∀ c ∈ dec n, c ≠ 32 := by
  intro c hc e
  subst e
  exact absurd (Xml.dec_digits hc) (by decide)

private theorem rm_comma (l : List Str) : rm (comma l) = comma (l.map rm) := by
  induction l with
  | nil => rfl
  | cons a l ih =>
    cases l with
    | nil => rfl
    | cons c l =>
      simp only [comma, List.map_cons] at ih ⊢
      rw [rm_append, show ∀ (s : Str), 44 :: s = [44] ++ s from fun _ => rfl, rm_append, ih]
      rfl

private theorem assoc_skip (q : Param) (ps : List Param) (a : Str) (as : List Str) (x : Str) (h : q.name ≠ x) : assoc (q :: ps) (a :: as) x = assoc ps as x := by
  rw [assoc, if_neg h]

private theorem assoc_map : ∀ (ps : List Param) (as : List Str), as.length = ps.length → (ps.map Param.name).Nodup →
    ps.map (fun p => assoc ps as p.name) = as.map some
  | [], [], _, _ => rfl
  | [], _ :: _, h, _ => by simp at h
  | _ :: _, [], h, _ => by simp at h
  | p :: ps, a :: as, h, hn => by
    simp only [List.map_cons, List.nodup_cons] at hn
    simp only [List.map_cons, List.cons.injEq]
    refine ⟨by simp [assoc], ?_⟩
    rw [← assoc_map ps as (by simpa using h) hn.2]
    apply List.map_congr_left
    intro q hq
    apply assoc_skip
    intro e
    exact hn.1 (e ▸ List.mem_map.2 ⟨q, hq, rfl⟩)

private theorem rm_sep (l : List Str) : rm (sepBy [44, 32] (l.map (· ++ [32]))) = comma (l.map rm) := by
  have h32 : rm [32] = [] := by decide
  induction l with
  | nil => rfl
  | cons a l ih =>
    cases l with
    | nil => simp [sepBy, comma, rm_append, h32]
    | cons c l =>
      simp only [List.map_cons, sepBy, comma] at ih ⊢
      rw [rm_append, ih, rm_append, rm_append, h32, show rm [44, 32] = [44] by decide]
      simp

private theorem user_name (params : List Str → List Param) (p : List Str) (args : List Ty) (hq : ∀ q ∈ params p, Fine q ∧ isType q ∧ q.pack = false)
    (hn : ((params p).map Param.name).Nodup) (hl : args.length = (params p).length) (h0 : args ≠ []) :
    name (world params) (.user p args []) = qualified p ++ ([60, 32] ++ sepBy [44, 32] ((args.map (name (world params))).map (· ++ [32])) ++ [62, 32]) := by
  rw [name]
  congr 1
  have hm := assoc_map (params p) (names (world params) args) (by rw [names_map, List.length_map, hl]) hn
  have hsome : ∀ q ∈ params p, (assoc (params p) (names (world params) args) q.name).isSome = true := by
    intro q hq
    have : assoc (params p) (names (world params) args) q.name ∈ (params p).map (fun q => assoc (params p) (names (world params) args) q.name) :=
      List.mem_map.2 ⟨q, hq, rfl⟩
    rw [hm] at this
    obtain ⟨a, _, e⟩ := List.mem_map.1 this
    rw [← e]; rfl
  have hshow : (params p).map (shown ((world params).env p (names (world params) args))) = (args.map (name (world params))).map (· ++ [32]) := by
    rw [← names_map]
    have : (names (world params) args).map (· ++ [32]) = ((names (world params) args).map some).map fun o => o.getD [] ++ [32] := by
      rw [List.map_map]; rfl
    rw [this, ← hm, List.map_map]
    apply List.map_congr_left
    intro q hq'
    simp only [shown, if_pos (hq q hq').2.1, Function.comp]
    rfl
  cases hps : params p with
  | nil => rw [hps] at hl; exact absurd (List.length_eq_zero_iff.1 hl) h0
  | cons q ps =>
    have := C80_generated_partial q ps (fun x hx => (hq x (hps ▸ hx)).1) ((world params).env p (names (world params) args))
      (fun x hx _ => hsome x (hps ▸ hx))
    rw [← hps] at this
    rw [show (world params).templ p = paramList (params p) from rfl, this, hshow]
    rfl

private theorem rm_name (params : List Str → List Param) {t : Ty} (h : Ok params t) : rm (name (world params) t) = sq t := by
  induction h with
  | fund f => rw [name, sq]
  | cls p hp => rw [name, sq, rm_id (path_space hp)]
  | lib l args _ _ _ ih =>
    have hl : rm l.text = l.text := by cases l <;> decide
    have : (args.map (name (world params))).map rm = args.map sq := by
      rw [List.map_map]; exact List.map_congr_left ih
    rw [name, sq, names_map, rm_append, rm_append, rm_append, hl, rm_comma, this, sqs_map]
    simp [rm]
  | sized l t n _ ih =>
    have hl : rm l.text = l.text := by cases l <;> decide
    rw [name, sq, rm_append, rm_append, rm_append, rm_append, rm_append, hl, ih, rm_id (dec_space n)]
    simp [rm]
  | user p args hp hq hn hl h0 _ ih =>
    have : (args.map (name (world params))).map rm = args.map sq := by
      rw [List.map_map]; exact List.map_congr_left ih
    rw [user_name params p args hq hn hl h0, sq, rm_append, rm_append, rm_append, rm_sep, this, rm_id (path_space hp), sqs_map]
    simp [rm]
  | const t _ _ ih =>
    have : rm (b "const ") = b "const" := by decide
    rw [name, sq, rm_append, ih, this]
  | ptr t _ ih => rw [name, sq, rm_append, ih]; rfl
  | ref t _ ih => rw [name, sq, rm_append, ih]; rfl
  | arr t n _ ih =>
    rw [name, sq, rm_append, rm_append, rm_append, ih, rm_id (dec_space n)]
    simp [rm]

private def wordChar (c : UInt8) : Bool := idChar c || c == 58

/-- What follows the name of an argument. -/
private def Fin (r : Str) : Prop := r = [] ∨ r.head? = some 44 ∨ r.head? = some 62

/-- What follows a word. -/
private def Stop (r : Str) : Prop := ∀ c, r.head? = some c → wordChar c = false

private theorem word_cut {w w' r r' : Str} (hw : ∀ c ∈ w, wordChar c = true) (hw' : ∀ c ∈ w', wordChar c = true) (hr : Stop r) (hr' : Stop r')
    (e : w ++ r = w' ++ r') : w = w' ∧ r = r' := by
  induction w generalizing w' with
  | nil =>
    cases w' with
    | nil => exact ⟨rfl, e⟩
    | cons c w' =>
      simp only [List.nil_append] at e
      subst e
      have := hr c rfl
      rw [hw' c (.head _)] at this
      cases this
  | cons d w ih =>
    cases w' with
    | nil =>
      simp only [List.nil_append] at e
      subst e
      have := hr' d rfl
      rw [hw d (.head _)] at this
      cases this
    | cons c w' =>
      simp only [List.cons_append, List.cons.injEq] at e
      obtain ⟨rfl, e⟩ := e
      obtain ⟨e1, e2⟩ := ih (fun x hx => hw x (.tail _ hx)) (fun x hx => hw' x (.tail _ hx)) e
      exact ⟨by rw [e1], e2⟩

private inductive Fixed
  | fund (f : Fund) | lib (l : Lib) | sized (l : Sized)
  deriving DecidableEq

private def Fixed.text : Fixed → Str
  | .fund f => rm f.text
  | .lib l => l.text
  | .sized l => l.text

private def allFixed : List Fixed :=
  [Fund.void, .bool, .char, .short, .int, .long, .schar, .uchar, .ushort, .uint, .ulong, .llong, .ullong, .float, .double, .ldouble,
    .string, .wstring, .char16, .char32, .wchar, .char8, .int128, .uint128].map .fund ++
  [Lib.sharedPtr, .uniquePtr, .weakPtr, .vector, .list, .deque, .set, .map, .multiset, .multimap, .pair, .unorderedSet, .unorderedMultiset,
    .unorderedMap, .unorderedMultimap, .enumHandle, .exclude, .polyRESTProcess, .polyJson, .polyXML, .polyPack, .iterator, .function].map .lib ++
  [.sized .array, .sized .arrayGet]

private def find (s : Str) : Option Fixed := allFixed.find? fun x => decide (x.text = s)

private theorem find_text (x : Fixed) : find x.text = some x := by
  cases x with
  | fund f => cases f <;> decide +kernel
  | lib l => cases l <;> decide +kernel
  | sized l => cases l <;> decide +kernel

private inductive Head
  | fixed (x : Fixed) | path (p : List Str)

private def Head.text : Head → Str
  | .fixed x => x.text
  | .path p => qualified p

private def Head.Ok : Head → Prop
  | .fixed _ => True
  | .path p => Path p

private theorem fixed_props (x : Fixed) : x.text ≠ [] ∧ x.text.head? ≠ some 58 ∧ (b "const").isPrefixOf x.text = false ∧ x.text.all wordChar = true := by
  cases x with
  | fund f => cases f <;> decide +kernel
  | lib l => cases l <;> decide +kernel
  | sized l => cases l <;> decide +kernel

private theorem qualified_cons (w : Str) (p : List Str) : qualified (w :: p) = 58 :: 58 :: (w ++ qualified p) := by
  have : b "::" = [58, 58] := by decide
  simp [qualified, this]

private theorem path_inj : ∀ {p q : List Str}, (∀ w ∈ p, w ≠ [] ∧ ∀ c ∈ w, idChar c = true) → (∀ w ∈ q, w ≠ [] ∧ ∀ c ∈ w, idChar c = true) →
    qualified p = qualified q → p = q
  | [], [], _, _, _ => rfl
  | [], w :: q, _, _, e => by rw [qualified_cons] at e; simp [qualified] at e
  | w :: p, [], _, _, e => by rw [qualified_cons] at e; simp [qualified] at e
  | w :: p, v :: q, hp, hq, e => by
    rw [qualified_cons, qualified_cons] at e
    simp only [List.cons.injEq, true_and] at e
    have cutId : ∀ {w v : Str}, (∀ c ∈ w, idChar c = true) → (∀ c ∈ v, idChar c = true) → w ++ qualified p = v ++ qualified q → w = v ∧ qualified p = qualified q := by
      intro w
      induction w with
      | nil =>
        intro v _ hv e
        cases v with
        | nil => exact ⟨rfl, e⟩
        | cons c v =>
          cases p with
          | nil => simp [qualified] at e
          | cons x p =>
            rw [qualified_cons] at e
            simp only [List.nil_append, List.cons_append, List.cons.injEq] at e
            exact absurd (hv c (.head _)) (by rw [← e.1]; decide)
      | cons d w ih =>
        intro v hw hv e
        cases v with
        | nil =>
          cases q with
          | nil => simp [qualified] at e
          | cons x q =>
            rw [qualified_cons] at e
            simp only [List.nil_append, List.cons_append, List.cons.injEq] at e
            exact absurd (hw d (.head _)) (by rw [e.1]; decide)
        | cons c v =>
          simp only [List.cons_append, List.cons.injEq] at e
          obtain ⟨rfl, e⟩ := e
          obtain ⟨e1, e2⟩ := ih (fun x hx => hw x (.tail _ hx)) (fun x hx => hv x (.tail _ hx)) e
          exact ⟨by rw [e1], e2⟩
    obtain ⟨rfl, e'⟩ := cutId (hp w (.head _)).2 (hq v (.head _)).2 e
    rw [path_inj (fun x hx => hp x (.tail _ hx)) (fun x hx => hq x (.tail _ hx)) e']

private theorem path_head {p : List Str} (h : Path p) : (qualified p).head? = some 58 := by
  cases p with
  | nil => exact absurd rfl h.1
  | cons w p => rw [qualified_cons]; rfl

private theorem head_inj {h h' : Head} (ok : h.Ok) (ok' : h'.Ok) (e : h.text = h'.text) : h = h' := by
  cases h with
  | fixed x =>
    cases h' with
    | fixed y =>
      have e : x.text = y.text := e
      have := find_text x
      rw [e, find_text y] at this
      simp at this
      rw [this]
    | path p =>
      have e : x.text = qualified p := e
      exact absurd (e ▸ path_head ok') (fixed_props x).2.1
  | path p =>
    cases h' with
    | fixed y =>
      have e : qualified p = y.text := e
      exact absurd (e ▸ path_head ok) (fixed_props y).2.1
    | path q => rw [path_inj ok.2 ok'.2 e]

private theorem head_const {h : Head} (ok : h.Ok) : (b "const").isPrefixOf h.text = false := by
  cases h with
  | fixed x => exact (fixed_props x).2.2.1
  | path p =>
    cases p with
    | nil => exact absurd rfl ok.1
    | cons w p =>
      have : b "const" = 99 :: b "onst" := by decide
      rw [this, Head.text, qualified_cons]
      rfl

private theorem head_chars {h : Head} (ok : h.Ok) : ∀ c ∈ h.text, wordChar c = true := by
  cases h with
  | fixed x => exact List.all_eq_true.1 (fixed_props x).2.2.2
  | path p =>
    intro c hc
    rcases path_chars ok c hc with h | rfl
    · simp [wordChar, h]
    · decide

/-- A core: its head, and what follows. -/
private def headOf : Ty → Head
  | .fund f => .fixed (.fund f)
  | .cls p => .path p
  | .lib l _ _ => .fixed (.lib l)
  | .sized l _ _ => .fixed (.sized l)
  | .user p _ _ => .path p
  | _ => .path []

private def tailOf : Ty → Str
  | .lib _ args _ => 60 :: (comma (sqs args) ++ [62])
  | .sized _ t n => 60 :: (sq t ++ 44 :: (dec n ++ [62]))
  | .user _ args _ => 60 :: (comma (sqs args) ++ [62])
  | _ => []

private theorem core_sq (params) {t : Ty} (hc : Core t) (h : Ok params t) : sq t = (headOf t).text ++ tailOf t ∧ (headOf t).Ok := by
  cases h with
  | fund f => exact ⟨by simp [sq, headOf, tailOf, Head.text, Fixed.text], trivial⟩
  | cls p hp => exact ⟨by simp [sq, headOf, tailOf, Head.text], hp⟩
  | lib l args _ _ _ => exact ⟨by rw [sq]; rfl, trivial⟩
  | sized l t n _ => exact ⟨by rw [sq]; rfl, trivial⟩
  | user p args hp _ _ _ _ _ => exact ⟨by rw [sq]; rfl, hp⟩
  | const _ _ _ => exact hc.elim
  | ptr _ _ => exact hc.elim
  | ref _ _ => exact hc.elim
  | arr _ _ _ => exact hc.elim

/-! Pointers, references, arrays -/

private inductive Suf
  | ptr | ref | arr (n : Nat)

private def Suf.text : Suf → Str
  | .ptr => [42]
  | .ref => [38]
  | .arr n => 91 :: (dec n ++ [93])

private def Suf.wrap : Ty → Suf → Ty
  | t, .ptr => .ptr t
  | t, .ref => .ref t
  | t, .arr n => .arr t n

private theorem dec_cut {n n' : Nat} {c c' : UInt8} {r r' : Str} (hc : Xml.isDigit c = false) (hc' : Xml.isDigit c' = false)
    (e : dec n ++ c :: r = dec n' ++ c' :: r') : n = n' ∧ c :: r = c' :: r' := by
  have key : ∀ {x y : Str}, (∀ d ∈ x, Xml.isDigit d = true) → (∀ d ∈ y, Xml.isDigit d = true) → x ++ c :: r = y ++ c' :: r' → x = y ∧ c :: r = c' :: r' := by
    intro x
    induction x with
    | nil =>
      intro y _ hy e
      cases y with
      | nil => exact ⟨rfl, e⟩
      | cons d y =>
        simp only [List.nil_append, List.cons_append, List.cons.injEq] at e
        rw [e.1, hy d (.head _)] at hc
        cases hc
    | cons d x ih =>
      intro y hx hy e
      cases y with
      | nil =>
        simp only [List.nil_append, List.cons_append, List.cons.injEq] at e
        rw [← e.1, hx d (.head _)] at hc'
        cases hc'
      | cons d' y =>
        simp only [List.cons_append, List.cons.injEq] at e
        obtain ⟨rfl, e⟩ := e
        obtain ⟨e1, e2⟩ := ih (fun x hx' => hx x (.tail _ hx')) (fun x hx' => hy x (.tail _ hx')) (by simpa using e)
        exact ⟨by rw [e1], e2⟩
  obtain ⟨e1, e2⟩ := key (fun d hd => Xml.dec_digits hd) (fun d hd => Xml.dec_digits hd) e
  exact ⟨Xml.dec_inj e1, e2⟩

private def sufText (s : List Suf) : Str := s.flatMap Suf.text

private theorem suf_inj : ∀ (s s' : List Suf) {r r' : Str}, Fin r → Fin r' → sufText s ++ r = sufText s' ++ r' → s = s' ∧ r = r'
  | [], [], r, r', _, _, e => ⟨rfl, e⟩
  | [], x :: s', r, r', hr, _, e => by
    exfalso
    simp only [sufText, List.flatMap_nil, List.nil_append, List.flatMap_cons] at e
    subst e
    rcases hr with h | h | h <;> cases x <;> simp [Suf.text] at h
  | x :: s, [], r, r', _, hr, e => by
    exfalso
    simp only [sufText, List.flatMap_nil, List.nil_append, List.flatMap_cons] at e
    subst e
    rcases hr with h | h | h <;> cases x <;> simp [Suf.text] at h
  | x :: s, y :: s', r, r', hr, hr', e => by
    have ih := @suf_inj s s' r r' hr hr'
    simp only [sufText, List.flatMap_cons] at e ih
    cases x <;> cases y <;> simp only [Suf.text, List.cons_append, List.nil_append, List.append_assoc, List.cons.injEq, true_and] at e
    · obtain ⟨rfl, h⟩ := ih (by simpa using e); exact ⟨rfl, h⟩
    · exact absurd e.1 (by decide)
    · exact absurd e.1 (by decide)
    · exact absurd e.1 (by decide)
    · obtain ⟨rfl, h⟩ := ih (by simpa using e); exact ⟨rfl, h⟩
    · exact absurd e.1 (by decide)
    · exact absurd e.1 (by decide)
    · exact absurd e.1 (by decide)
    · obtain ⟨rfl, h⟩ := dec_cut (by decide) (by decide) e
      simp only [List.cons.injEq, true_and] at h
      obtain ⟨rfl, h2⟩ := ih (by simpa using h)
      exact ⟨rfl, h2⟩

/-- Every type considered is a core, perhaps `const`, with pointers and so on. -/
private theorem split_ty (params) {t : Ty} (h : Ok params t) : ∃ (c : Bool) (u : Ty) (s : List Suf), Core u ∧ Ok params u ∧
    t = s.foldl Suf.wrap (if c = true then .const u else u) ∧ sq t = (if c = true then b "const" else []) ++ sq u ++ sufText s ∧ sizeOf u ≤ sizeOf t := by
  induction h with
  | fund f => exact ⟨false, .fund f, [], trivial, .fund f, rfl, by simp [sufText], Nat.le_refl _⟩
  | cls p hp => exact ⟨false, .cls p, [], trivial, .cls p hp, rfl, by simp [sufText], Nat.le_refl _⟩
  | lib l args h1 h2 h3 _ => exact ⟨false, .lib l args [], [], trivial, .lib l args h1 h2 h3, rfl, by simp [sufText], Nat.le_refl _⟩
  | sized l t n h _ => exact ⟨false, .sized l t n, [], trivial, .sized l t n h, rfl, by simp [sufText], Nat.le_refl _⟩
  | user p args h1 h2 h3 h4 h5 h6 _ => exact ⟨false, .user p args [], [], trivial, .user p args h1 h2 h3 h4 h5 h6, rfl, by simp [sufText], Nat.le_refl _⟩
  | const t hc h _ => exact ⟨true, t, [], hc, h, rfl, by simp [sufText, sq], by simp⟩
  | ptr t _ ih =>
    obtain ⟨c, u, s, h1, h2, h3, h4, h5⟩ := ih
    refine ⟨c, u, s ++ [.ptr], h1, h2, ?_, ?_, by simp; omega⟩
    · rw [List.foldl_append, ← h3]; rfl
    · rw [sq, h4]; simp [sufText, Suf.text]
  | ref t _ ih =>
    obtain ⟨c, u, s, h1, h2, h3, h4, h5⟩ := ih
    refine ⟨c, u, s ++ [.ref], h1, h2, ?_, ?_, by simp; omega⟩
    · rw [List.foldl_append, ← h3]; rfl
    · rw [sq, h4]; simp [sufText, Suf.text]
  | arr t n _ ih =>
    obtain ⟨c, u, s, h1, h2, h3, h4, h5⟩ := ih
    refine ⟨c, u, s ++ [.arr n], h1, h2, ?_, ?_, by simp; omega⟩
    · rw [List.foldl_append, ← h3]; rfl
    · rw [sq, h4]; simp [sufText, Suf.text]

private theorem stop_tail (s : List Suf) {r : Str} (h : Fin r) : Stop (sufText s ++ r) ∧ ∀ x, sufText s ++ r ≠ 60 :: x := by
  cases s with
  | nil =>
    rcases h with rfl | h | h
    · exact ⟨by simp [Stop, sufText], by simp [sufText]⟩
    · cases r with
      | nil => simp at h
      | cons c r =>
        simp at h; subst h
        exact ⟨by simp [Stop, sufText]; decide, by simp [sufText]⟩
    · cases r with
      | nil => simp at h
      | cons c r =>
        simp at h; subst h
        exact ⟨by simp [Stop, sufText]; decide, by simp [sufText]⟩
  | cons x s =>
    cases x
    · exact ⟨by simp [Stop, sufText, Suf.text]; decide, by simp [sufText, Suf.text]⟩
    · exact ⟨by simp [Stop, sufText, Suf.text]; decide, by simp [sufText, Suf.text]⟩
    · exact ⟨by simp [Stop, sufText, Suf.text]; decide, by simp [sufText, Suf.text]⟩

private theorem list_inj (params) (n : Nat) (ih : ∀ t t' : Ty, sizeOf t < n → Ok params t → Ok params t' → ∀ r r', Fin r → Fin r' → sq t ++ r = sq t' ++ r' → t = t' ∧ r = r') :
    ∀ (l l' : List Ty), l ≠ [] → l' ≠ [] → (∀ t ∈ l, sizeOf t < n ∧ Ok params t) → (∀ t ∈ l', Ok params t) → ∀ r r',
      comma (sqs l) ++ 62 :: r = comma (sqs l') ++ 62 :: r' → l = l' ∧ r = r'
  | [], _, h, _, _, _, _, _, _ => absurd rfl h
  | _, [], _, h, _, _, _, _, _ => absurd rfl h
  | [t], [t'], _, _, hl, hl', r, r', e => by
    simp only [sqs, comma] at e
    obtain ⟨rfl, e⟩ := ih t t' (hl t (.head _)).1 (hl t (.head _)).2 (hl' t' (.head _)) _ _ (.inr (.inr rfl)) (.inr (.inr rfl)) e
    simp at e
    exact ⟨rfl, e⟩
  | [t], t' :: u' :: l', _, _, hl, hl', r, r', e => by
    simp only [sqs, comma, List.append_assoc, List.cons_append] at e
    obtain ⟨rfl, e⟩ := ih t t' (hl t (.head _)).1 (hl t (.head _)).2 (hl' t' (.head _)) _ _ (.inr (.inr rfl)) (.inr (.inl rfl)) e
    simp at e
  | t :: u :: l, [t'], _, _, hl, hl', r, r', e => by
    simp only [sqs, comma, List.append_assoc, List.cons_append] at e
    obtain ⟨rfl, e⟩ := ih t t' (hl t (.head _)).1 (hl t (.head _)).2 (hl' t' (.head _)) _ _ (.inr (.inl rfl)) (.inr (.inr rfl)) e
    simp at e
  | t :: u :: l, t' :: u' :: l', _, _, hl, hl', r, r', e => by
    simp only [sqs, comma, List.append_assoc, List.cons_append] at e
    obtain ⟨rfl, e3⟩ := ih t t' (hl t (.head _)).1 (hl t (.head _)).2 (hl' t' (.head _)) _ _ (.inr (.inl rfl)) (.inr (.inl rfl)) e
    simp only [List.cons.injEq, true_and] at e3
    obtain ⟨e1, e2⟩ := list_inj params n ih (u :: l) (u' :: l') (by simp) (by simp) (fun x hx => hl x (.tail _ hx)) (fun x hx => hl' x (.tail _ hx)) r r'
      (by simpa only [sqs, comma] using e3)
    exact ⟨by rw [e1], e2⟩

private theorem core_inj (params) (n : Nat) (ih : ∀ t t' : Ty, sizeOf t < n → Ok params t → Ok params t' → ∀ r r', Fin r → Fin r' → sq t ++ r = sq t' ++ r' → t = t' ∧ r = r')
    (t t' : Ty) (hs : sizeOf t ≤ n) (hc : Core t) (hc' : Core t') (h : Ok params t) (h' : Ok params t') (hh : headOf t = headOf t') (r r' : Str)
    (hr : ∀ x, r ≠ 60 :: x) (hr' : ∀ x, r' ≠ 60 :: x) (e : tailOf t ++ r = tailOf t' ++ r') : t = t' ∧ r = r' := by
  cases h with
  | fund f =>
    cases h' <;> simp [headOf] at hh
    subst hh
    exact ⟨rfl, by simpa [tailOf] using e⟩
  | cls p hp =>
    cases h' with
    | cls q hq =>
      simp [headOf] at hh
      subst hh
      exact ⟨rfl, by simpa [tailOf] using e⟩
    | user q args _ _ _ _ _ _ =>
      simp only [tailOf, List.nil_append, List.cons_append] at e
      exact absurd e (hr _)
    | fund _ => simp [headOf] at hh
    | lib _ _ _ _ _ => simp [headOf] at hh
    | sized _ _ _ _ => simp [headOf] at hh
    | const _ _ _ => exact hc'.elim
    | ptr _ _ => exact hc'.elim
    | ref _ _ => exact hc'.elim
    | arr _ _ _ => exact hc'.elim
  | lib l args h1 h2 h3 =>
    cases h' <;> simp [headOf] at hh
    rename_i l' args' h1' h2' h3'
    subst hh
    simp only [tailOf, List.cons_append, List.append_assoc, List.cons.injEq, true_and, List.nil_append] at e
    obtain ⟨rfl, e3⟩ := list_inj params n ih args args' h2 h2'
      (fun x hx => ⟨by have := List.sizeOf_lt_of_mem hx; simp at hs; omega, h3 x hx⟩) h3' r r' e
    exact ⟨rfl, e3⟩
  | sized l t m h1 =>
    cases h' <;> simp [headOf] at hh
    rename_i l' t' m' h1'
    subst hh
    simp only [tailOf, List.cons_append, List.append_assoc, List.cons.injEq, true_and, List.nil_append] at e
    obtain ⟨rfl, e3⟩ := ih t t' (by simp at hs; omega) h1 h1' _ _ (.inr (.inl rfl)) (.inr (.inl rfl)) e
    simp only [List.cons.injEq, true_and] at e3
    obtain ⟨rfl, e4⟩ := dec_cut (by decide) (by decide) e3
    simp at e4
    exact ⟨rfl, e4⟩
  | user p args h1 h2 h3 h4 h5 h6 =>
    cases h' with
    | cls q hq =>
      simp only [tailOf, List.nil_append, List.cons_append] at e
      exact absurd e.symm (hr' _)
    | user q args' _ _ _ _ h5' h6' =>
      simp [headOf] at hh
      subst hh
      simp only [tailOf, List.cons_append, List.append_assoc, List.cons.injEq, true_and, List.nil_append] at e
      obtain ⟨rfl, e3⟩ := list_inj params n ih args args' h5 h5'
        (fun x hx => ⟨by have := List.sizeOf_lt_of_mem hx; simp at hs; omega, h6 x hx⟩) h6' r r' e
      exact ⟨rfl, e3⟩
    | fund _ => simp [headOf] at hh
    | lib _ _ _ _ _ => simp [headOf] at hh
    | sized _ _ _ _ => simp [headOf] at hh
    | const _ _ _ => exact hc'.elim
    | ptr _ _ => exact hc'.elim
    | ref _ _ => exact hc'.elim
    | arr _ _ _ => exact hc'.elim
  | const _ _ _ => exact hc.elim
  | ptr _ _ => exact hc.elim
  | ref _ _ => exact hc.elim
  | arr _ _ _ => exact hc.elim

private theorem prefix_false {p x y : Str} (h : p.isPrefixOf x = false) : x ≠ p ++ y := by
  rintro rfl
  rw [List.isPrefixOf_iff_prefix.2 (List.prefix_append p y)] at h
  cases h

private theorem sq_inj (params) (n : Nat) : ∀ t t' : Ty, sizeOf t < n → Ok params t → Ok params t' → ∀ r r', Fin r → Fin r' →
    sq t ++ r = sq t' ++ r' → t = t' ∧ r = r' := by
  induction n with
  | zero => intro t t' h; omega
  | succ n ih =>
    intro t t' hn h h' r r' hr hr' e
    obtain ⟨c, u, s, hc, hu, et, es, hsz⟩ := split_ty params h
    obtain ⟨c', u', s', hc', hu', et', es', _⟩ := split_ty params h'
    obtain ⟨eu, oku⟩ := core_sq params hc hu
    obtain ⟨eu', oku'⟩ := core_sq params hc' hu'
    obtain ⟨st, nt⟩ := stop_tail s hr
    obtain ⟨st', nt'⟩ := stop_tail s' hr'
    have stopTail : ∀ (u : Ty) (x : Str), Stop x → Stop (tailOf u ++ x) := by
      intro u x hx
      cases u <;> first | exact hx | (intro c hc; simp [tailOf] at hc; subst hc; decide)
    have hconst : ∀ c ∈ b "const", wordChar c = true := by decide
    rw [es, es', eu, eu'] at e
    have chars : ∀ (c : Bool) (h : Head), h.Ok → ∀ x ∈ (if c = true then b "const" else []) ++ h.text, wordChar x = true := by
      intro c h ok x hx
      rcases List.mem_append.1 hx with hx | hx
      · cases c
        · simp at hx
        · exact hconst x hx
      · exact head_chars ok x hx
    obtain ⟨e1, e2⟩ := word_cut (chars c _ oku) (chars c' _ oku') (stopTail u _ st) (stopTail u' _ st') (by simpa only [List.append_assoc] using e)
    have hcc : c = c' ∧ (headOf u).text = (headOf u').text := by
      cases c <;> cases c' <;> simp at e1
      · exact ⟨rfl, e1⟩
      · exact absurd e1 (prefix_false (head_const oku))
      · exact absurd e1.symm (prefix_false (head_const oku'))
      · exact ⟨rfl, e1⟩
    obtain ⟨rfl, e3⟩ := hcc
    obtain ⟨rfl, e4⟩ := core_inj params n ih u u' (by omega) hc hc' hu hu' (head_inj oku oku' e3) _ _ nt nt' e2
    obtain ⟨rfl, e5⟩ := suf_inj s s' hr hr' e4
    exact ⟨by rw [et, et'], e5⟩

/-- Types with the same name are the same. -/
theorem C80_identifies_partial (params : List Str → List Param) (t t' : Ty) (h : Ok params t) (h' : Ok params t')
    (e : name (world params) t = name (world params) t') : t = t' := by
  have e' : sq t ++ [] = sq t' ++ [] := by rw [← rm_name params h, ← rm_name params h', e]
  exact (sq_inj params (sizeOf t + 1) t t' (Nat.lt_succ_self _) h h' [] [] (.inl rfl) (.inl rfl) e').1

/-! ### Examples -/

def pT : Param := ⟨[.word (b "class")], false, b "T"⟩
def pU : Param := ⟨[.word (b "typename")], false, b "U"⟩
def pN : Param := ⟨[.word (b "int")], false, b "N"⟩

private theorem fine_T : Fine pT := ⟨⟨by decide, by decide⟩, by decide, fun h => absurd (.inl rfl) h⟩
private theorem fine_U : Fine pU := ⟨⟨by decide, by decide⟩, by decide, fun h => absurd (.inr rfl) h⟩
private theorem fine_N : Fine pN := ⟨⟨by decide, by decide⟩, by decide, fun _ => ⟨by decide, by decide, by decide⟩⟩

/-- `template <class T, typename U> struct n::A; template <class T, int N> struct V;` -/
def sampleParams : List Str → List Param
  | [_] => [pT, pN]
  | _ => [pT, pU]

/-- `const n::A<unsigned int*, std::map<std::string, B[3]>>&` -/
example : ∃ t : Ty, Ok sampleParams t ∧
    name (world sampleParams) t = b "const ::n::A< unsigned int* , std::map<std::string,::B[3]> > &" := by
  refine ⟨.ref (.const (.user [b "n", b "A"] [.ptr (.fund .uint), .lib .map [.fund .string, .arr (.cls [b "B"]) 3] []] [])), ?_, by decide +kernel⟩
  refine .ref _ (.const _ trivial (.user _ _ ⟨by decide, by decide⟩ ?_ (by decide) (by decide) (by decide) ?_))
  · intro q hq
    simp only [sampleParams, List.mem_cons, List.not_mem_nil, or_false] at hq
    rcases hq with rfl | rfl
    · exact ⟨fine_T, .inl rfl, rfl⟩
    · exact ⟨fine_U, .inr rfl, rfl⟩
  · intro t ht
    simp only [List.mem_cons, List.not_mem_nil, or_false] at ht
    rcases ht with rfl | rfl
    · exact .ptr _ (.fund _)
    · refine .lib _ _ (by decide) (by decide) ?_
      intro t ht
      simp only [List.mem_cons, List.not_mem_nil, or_false] at ht
      rcases ht with rfl | rfl
      · exact .fund _
      · exact .arr _ _ (.cls _ ⟨by decide, by decide⟩)

/-- `template <class T, int N, class... A>`. -/
example : (∀ q ∈ [pT, pN, ⟨[.word (b "class")], true, b "A"⟩], Fine q) ∧
    ((tnTempl (b "< class T , int N , class ...A > ")).bind fun e => value (fun pack x => if pack = true then some (b "int,char") else some x) (e.length + 1) e) =
      some (b "< T , int N , int,char > ") := by
  refine ⟨?_, by decide +kernel⟩
  intro q hq
  simp only [List.mem_cons, List.not_mem_nil, or_false] at hq
  rcases hq with rfl | rfl | rfl
  · exact fine_T
  · exact fine_N
  · exact ⟨⟨by decide, by decide⟩, by decide, fun h => absurd (.inl rfl) h⟩

/-! ### What goes wrong -/

/-- A constant pointer and a pointer to a constant have the same name: `char* const` and `const char*`. -/
theorem C80_const_fails (w : World) (t : Ty) : name w (.const (.ptr t)) = name w (.ptr (.const t)) ∧ Ty.const (.ptr t) ≠ .ptr (.const t) := by
  simp [name]

/-- Allocators, comparisons, hash functions and deleters are not in the name. -/
theorem C80_hidden_fails (w : World) (l : Lib) (args h h' : List Ty) : name w (.lib l args h) = name w (.lib l args h') := by
  simp [name]

/-- All functions have the same name, so have all pointers to member functions and all `std::function`s. -/
theorem C80_function_fails (w : World) (c r c' r' : Ty) (a a' h h' : List Ty) : name w (.fn r a) = name w (.fn r' a') ∧
    name w (.memfn c r a) = name w (.memfn c' r' a') ∧ name w (.fn r a) = name w (.memfn c' r' a') ∧
    name w (.lib .function [.fn r a] h) = name w (.lib .function [.fn r' a'] h') := by
  simp [name, names]

/-- All tuples have the same name, -/
theorem C80_tuple_fails (w : World) (a a' : List Ty) : name w (.tuple a) = name w (.tuple a') := by simp [name]

/-- and all iterators. -/
theorem C80_iterator_fails (w : World) (t t' : Ty) : name w (.iter t) = name w (.iter t') := by simp [name]

/-- An rvalue reference has the name of the type. -/
theorem C80_rvalue_fails (w : World) (t : Ty) : name w (.rref t) = name w t := by simp [name]

/-- Arguments that are not types are not in the name of an instance of a class template: `V<int,3>` and `V<int,5>`. -/
theorem C80_value_fails (w : World) (p : List Str) (args : List Ty) (v v' : List Str) : name w (.user p args v) = name w (.user p args v') ∧
    name (world sampleParams) (.user [b "V"] [.fund .int] [b "3"]) = b "::V< int , int N > " ∧
    name (world sampleParams) (.user [b "V"] [.fund .int] [b "5"]) = b "::V< int , int N > " := by
  refine ⟨by simp [name], by decide +kernel, by decide +kernel⟩

/-- An unnamed parameter, or one whose name has `class` in it and is no type, makes the generator write something that is not an
expression. -/
theorem C80_unnamed_fails : tnTempl (b "< class > ") = some (b "< \"+typeName<>>()+\" ") ∧
    tnTempl (b "< class T , class > ") = some (b "< \"+typeName<T>()+\" , \"+typeName<>>()+\" ") ∧
    tnTempl (b "< class , class T > ") = some (b "< \"+typeName<>()+\", \"+typeName<T>()+\" > ") ∧
    tnTempl (b "< int class_size > ") = some (b "< int \"+typeName<>>()+\" ") := by
  decide +kernel

/-- With a template for a parameter, or `template` in the name of one, the parameters themselves are written. -/
theorem C80_template_fails (templ : Str) (h : within (b "template") templ = true) : tnTempl templ = some templ := by
  rw [tnTempl, if_pos h]

example : tnTempl (b "< template < class > class C , class T > ") = some (b "< template < class > class C , class T > ") := by decide +kernel

end Verif.TName
