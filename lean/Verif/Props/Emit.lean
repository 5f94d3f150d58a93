import Verif.Emit
import Verif.Props.TopLevel
/-
C79: the compiler sees one descriptor for each type and action, except for those left out by a pragma.
-/
namespace Verif.Emit
open Verif.Tok (Str b)
open Verif.Top (Reg scope Key)
open Verif.Bases (Ident idChar idStart)

/-! ### Specification -/

/-- An identifier without underscores. -/
def Smooth (w : Str) : Prop := w ≠ [] ∧ ∀ c ∈ w, alnum c = true

/-- An identifier whose underscores stand alone and not at its end. -/
def tidy : Str → Bool
  | [] => false
  | [c] => alnum c
  | c :: d :: r => (alnum c || (c == 95 && alnum d)) && tidy (d :: r)

/-- Spec: the name of a type: the scopes it is in, its name, and the template parameters. -/
structure Name where
  path : List Str
  args : List Str
  deriving DecidableEq

def commas : List Str → Str
  | [] => []
  | [a] => a
  | a :: l => a ++ 44 :: commas l

def Name.text (n : Name) : Str := scope n.path ++ (if n.args = [] then [] else 60 :: (commas n.args ++ [62]))

structure Name.Ok (n : Name) : Prop where
  ne : n.path ≠ []
  class_ : n.args = [] → ∀ w ∈ n.path, tidy w = true
  tmpl : n.args ≠ [] → (∀ w ∈ n.path, Smooth w) ∧ ∀ w ∈ n.args, Smooth w

/-! ### Guards -/

private def mask (s : Str) : Str := s.map fun c => if alnum c = true then c else 95

private theorem mask_append (a c : Str) : mask (a ++ c) = mask a ++ mask c := by simp [mask]

private theorem tidy_chars : ∀ {w : Str}, tidy w = true → ∀ c ∈ w, alnum c = true ∨ c = 95
  | [], h => by simp [tidy] at h
  | [c], h => by intro d hd; simp at hd; subst hd; exact .inl h
  | c :: d :: r, h => by
    simp only [tidy, Bool.and_eq_true, Bool.or_eq_true, beq_iff_eq] at h
    intro e he
    rcases List.mem_cons.1 he with rfl | he
    · rcases h.1 with h | h
      · exact .inl h
      · exact .inr h.1
    · exact tidy_chars h.2 e he

private theorem smooth_tidy : ∀ {w : Str}, Smooth w → tidy w = true
  | [], h => absurd rfl h.1
  | [c], h => h.2 c (.head _)
  | c :: d :: r, h => by
    have := smooth_tidy (w := d :: r) ⟨by simp, fun e he => h.2 e (.tail _ he)⟩
    simp [tidy, h.2 c (.head _), this]

private theorem mask_id {w : Str} (h : ∀ c ∈ w, alnum c = true ∨ c = 95) : mask w = w := by
  induction w with
  | nil => rfl
  | cons c r ih =>
    have hr := ih fun d hd => h d (.tail _ hd)
    simp only [mask, List.map_cons] at hr ⊢
    rw [hr]
    rcases h c (.head _) with h | rfl
    · simp [h]
    · rfl

/-- At the end, or at two underscores. -/
private def Gap (r : Str) : Prop := r = [] ∨ ∃ t, r = 95 :: 95 :: t

private theorem cancel : ∀ {w w' r r' : Str}, tidy w = true → tidy w' = true → Gap r → Gap r' → w ++ r = w' ++ r' → w = w' ∧ r = r'
  | [], _, _, _, h, _, _, _, _ => by simp [tidy] at h
  | _, [], _, _, _, h, _, _, _ => by simp [tidy] at h
  | [c], [c'], r, r', _, _, _, _, e => by simpa using e
  | [c], c' :: d' :: t', r, r', h, h', g, g', e => by
    simp only [List.cons_append, List.nil_append, List.cons.injEq] at e
    obtain ⟨rfl, e⟩ := e
    simp only [tidy, Bool.and_eq_true] at h'
    rcases g with rfl | ⟨t, rfl⟩
    · simp at e
    · simp only [List.cons.injEq] at e
      obtain ⟨rfl, e⟩ := e
      cases t' with
      | nil => exact absurd h'.2 (by decide)
      | cons x t' =>
        simp only [List.cons_append, List.cons.injEq] at e
        obtain ⟨rfl, e⟩ := e
        have := h'.2
        simp only [tidy, Bool.and_eq_true, Bool.or_eq_true] at this
        exact absurd this.1 (by decide)
  | c :: d :: t, [c'], r, r', h, h', g, g', e => by
    simp only [List.cons_append, List.nil_append, List.cons.injEq] at e
    obtain ⟨rfl, e⟩ := e
    simp only [tidy, Bool.and_eq_true] at h
    rcases g' with rfl | ⟨t', rfl⟩
    · simp at e
    · simp only [List.cons.injEq] at e
      obtain ⟨rfl, e⟩ := e
      cases t with
      | nil => exact absurd h.2 (by decide)
      | cons x t =>
        simp only [List.cons_append, List.cons.injEq] at e
        obtain ⟨rfl, e⟩ := e
        have := h.2
        simp only [tidy, Bool.and_eq_true, Bool.or_eq_true] at this
        exact absurd this.1 (by decide)
  | c :: d :: t, c' :: d' :: t', r, r', h, h', g, g', e => by
    simp only [tidy, Bool.and_eq_true] at h h'
    rw [List.cons_append (a := c), List.cons_append (a := c'), List.cons.injEq] at e
    obtain ⟨rfl, e⟩ := e
    obtain ⟨e1, e2⟩ := cancel h.2 h'.2 g g' e
    exact ⟨by rw [e1], e2⟩

/-- At the end, or at an underscore. -/
private def Stop (r : Str) : Prop := r = [] ∨ ∃ t, r = 95 :: t

private theorem cancel_smooth : ∀ {w w' r r' : Str}, (∀ c ∈ w, alnum c = true) → (∀ c ∈ w', alnum c = true) → Stop r → Stop r' →
    w ++ r = w' ++ r' → w = w' ∧ r = r'
  | [], [], _, _, _, _, _, _, e => ⟨rfl, e⟩
  | [], c :: w, r, r', _, h', g, _, e => by
    rcases g with rfl | ⟨t, rfl⟩
    · simp at e
    · simp only [List.nil_append, List.cons_append, List.cons.injEq] at e
      have := h' c (.head _)
      rw [← e.1] at this
      exact absurd this (by decide)
  | c :: w, [], r, r', h, _, _, g, e => by
    rcases g with rfl | ⟨t, rfl⟩
    · simp at e
    · simp only [List.nil_append, List.cons_append, List.cons.injEq] at e
      have := h c (.head _)
      rw [e.1] at this
      exact absurd this (by decide)
  | c :: w, c' :: w', r, r', h, h', g, g', e => by
    simp only [List.cons_append, List.cons.injEq] at e
    obtain ⟨rfl, e⟩ := e
    obtain ⟨e1, e2⟩ := cancel_smooth (fun d hd => h d (.tail _ hd)) (fun d hd => h' d (.tail _ hd)) g g' e
    exact ⟨by rw [e1], e2⟩

private def under (path : List Str) : Str := path.flatMap fun n => 95 :: 95 :: n

private theorem mask_scope (path : List Str) (h : ∀ w ∈ path, ∀ c ∈ w, alnum c = true ∨ c = 95) : mask (scope path) = under path := by
  induction path with
  | nil => rfl
  | cons w p ih =>
    have := ih fun x hx => h x (.tail _ hx)
    simp only [scope, under, List.flatMap_cons] at this ⊢
    rw [mask_append, this, mask_append, mask_id (h w (.head _))]
    rfl

private theorem under_gap (path : List Str) : Gap (under path) := by
  cases path with
  | nil => exact .inl rfl
  | cons w p => exact .inr ⟨w ++ under p, by simp [under]⟩

private theorem under_inj : ∀ {p q : List Str}, (∀ w ∈ p, tidy w = true) → (∀ w ∈ q, tidy w = true) → under p = under q → p = q
  | [], [], _, _, _ => rfl
  | [], w :: q, _, _, e => by simp [under] at e
  | w :: p, [], _, _, e => by simp [under] at e
  | w :: p, v :: q, h, h', e => by
    simp only [under, List.flatMap_cons, List.cons_append, List.cons.injEq, true_and] at e
    obtain ⟨e1, e2⟩ := cancel (h w (.head _)) (h' v (.head _)) (under_gap p) (under_gap q) e
    rw [e1, under_inj (fun x hx => h x (.tail _ hx)) (fun x hx => h' x (.tail _ hx)) e2]

/-- The arguments, masked. -/
private def underArgs : List Str → Str
  | [] => []
  | a :: l => 95 :: (a ++ underArgs l)

private theorem mask_args (l : List Str) (h : ∀ w ∈ l, Smooth w) (h0 : l ≠ []) : mask (60 :: (commas l ++ [62])) = underArgs l ++ [95] := by
  have key : ∀ l : List Str, l ≠ [] → (∀ w ∈ l, Smooth w) → 95 :: mask (commas l) = underArgs l := by
    intro l
    induction l with
    | nil => intro h; exact absurd rfl h
    | cons a l ih =>
      intro _ h
      have ha : mask a = a := mask_id fun c hc => .inl ((h a (.head _)).2 c hc)
      cases l with
      | nil => simp [commas, underArgs, ha]
      | cons d l =>
        have := ih (by simp) (fun x hx => h x (.tail _ hx))
        rw [commas, mask_append, ha, underArgs, ← this]
        · simp [mask]; decide
        · simp
  have := key l h0 h
  rw [← this]
  simp [mask]
  decide

private theorem underArgs_inj : ∀ {p q : List Str}, (∀ w ∈ p, Smooth w) → (∀ w ∈ q, Smooth w) → underArgs p ++ [95] = underArgs q ++ [95] → p = q := by
  have st : ∀ p : List Str, Stop (underArgs p ++ [95]) := by
    intro p
    cases p with
    | nil => exact .inr ⟨[], rfl⟩
    | cons a p => exact .inr ⟨a ++ underArgs p ++ [95], by simp [underArgs]⟩
  intro p
  induction p with
  | nil =>
    intro q _ h e
    cases q with
    | nil => rfl
    | cons a q => simp [underArgs] at e
  | cons a p ih =>
    intro q h h' e
    cases q with
    | nil => simp [underArgs] at e
    | cons d q =>
      simp only [underArgs, List.cons_append, List.cons.injEq, true_and, List.append_assoc] at e
      obtain ⟨e1, e2⟩ := cancel_smooth (h a (.head _)).2 (h' d (.head _)).2 (st p) (st q) e
      rw [e1, ih (fun x hx => h x (.tail _ hx)) (fun x hx => h' x (.tail _ hx)) e2]

private theorem under_args_inj : ∀ {p q a d : List Str}, (∀ w ∈ p, Smooth w) → (∀ w ∈ q, Smooth w) → (∀ w ∈ a, Smooth w) → (∀ w ∈ d, Smooth w) →
    a ≠ [] → d ≠ [] → under p ++ (underArgs a ++ [95]) = under q ++ (underArgs d ++ [95]) → p = q ∧ a = d := by
  have st : ∀ p a : List Str, Stop (under p ++ (underArgs a ++ [95])) := by
    intro p a
    cases p with
    | nil =>
      cases a with
      | nil => exact .inr ⟨[], rfl⟩
      | cons x a => exact .inr ⟨x ++ underArgs a ++ [95], by simp [under, underArgs]⟩
    | cons w p => exact .inr ⟨_, by simp [under]; rfl⟩
  have hd : ∀ a : List Str, (∀ w ∈ a, Smooth w) → a ≠ [] → ∃ c t, underArgs a = 95 :: c :: t ∧ c ≠ 95 := by
    intro a h h0
    cases a with
    | nil => exact absurd rfl h0
    | cons x a =>
      cases x with
      | nil => exact absurd rfl (h [] (.head _)).1
      | cons c x =>
        refine ⟨c, x ++ underArgs a, by simp [underArgs], ?_⟩
        rintro rfl
        exact absurd ((h _ (.head _)).2 95 (.head _)) (by decide)
  intro p
  induction p with
  | nil =>
    intro q a d _ hq ha hd' a0 d0 e
    cases q with
    | nil => exact ⟨rfl, underArgs_inj ha hd' (by simpa [under] using e)⟩
    | cons v q =>
      obtain ⟨c, t, h1, h2⟩ := hd a ha a0
      simp [under, h1] at e
      exact absurd e.1 h2
  | cons w p ih =>
    intro q a d hp hq ha hd' a0 d0 e
    cases q with
    | nil =>
      obtain ⟨c, t, h1, h2⟩ := hd d hd' d0
      simp [under, h1] at e
      exact absurd e.1.symm h2
    | cons v q =>
      simp only [under, List.flatMap_cons, List.cons_append, List.cons.injEq, true_and, List.append_assoc] at e
      obtain ⟨e1, e2⟩ := cancel_smooth (hp w (.head _)).2 (hq v (.head _)).2 (st p a) (st q d) e
      obtain ⟨e3, e4⟩ := ih (fun x hx => hp x (.tail _ hx)) (fun x hx => hq x (.tail _ hx)) ha hd' a0 d0 e2
      exact ⟨by rw [e1, e3], e4⟩

private theorem under_last {p : List Str} (h : ∀ w ∈ p, tidy w = true) (h0 : p ≠ []) : ∃ s c, under p = s ++ [c] ∧ alnum c = true := by
  have lt : ∀ w : Str, tidy w = true → ∃ s c, w = s ++ [c] ∧ alnum c = true := by
    intro w
    induction w with
    | nil => intro h; simp [tidy] at h
    | cons x w ih =>
      intro h
      cases w with
      | nil => exact ⟨[], x, rfl, h⟩
      | cons y w =>
        simp only [tidy, Bool.and_eq_true] at h
        obtain ⟨s, c, e, hc⟩ := ih h.2
        exact ⟨x :: s, c, by rw [e]; rfl, hc⟩
  obtain ⟨q, w, rfl⟩ : ∃ q w, p = q ++ [w] := ⟨p.dropLast, p.getLast h0, (List.dropLast_concat_getLast h0).symm⟩
  obtain ⟨s, c, e, hc⟩ := lt w (h w (by simp))
  exact ⟨under q ++ 95 :: 95 :: s, c, by simp [under, e], hc⟩

private theorem guard_eq {action : Str} {n : Name} (ha : tidy action = true) (hn : n.Ok) :
    guard action n.text = b "CLASSDESC_" ++ (action ++ 95 :: (under n.path ++ (if n.args = [] then [] else underArgs n.args ++ [95]))) := by
  have hp : ∀ w ∈ n.path, ∀ c ∈ w, alnum c = true ∨ c = 95 := by
    by_cases h : n.args = []
    · intro w hw; exact tidy_chars (hn.class_ h w hw)
    · intro w hw c hc; exact .inl (((hn.tmpl h).1 w hw).2 c hc)
  show mask _ = _
  rw [mask_append, mask_append, mask_append, mask_id (tidy_chars ha), Name.text, mask_append, mask_scope _ hp]
  by_cases h : n.args = []
  · simp [h, mask]; decide
  · rw [if_neg h, if_neg h, mask_args _ (hn.tmpl h).2 h]
    simp [mask]; decide

/-- Guards of different types, or for different actions, are different. -/
theorem C79_guard_partial {a a' : Str} {n n' : Name} (ha : tidy a = true) (ha' : tidy a' = true) (hn : n.Ok) (hn' : n'.Ok)
    (e : guard a n.text = guard a' n'.text) : a = a' ∧ n = n' := by
  rw [guard_eq ha hn, guard_eq ha' hn', List.append_cancel_left_eq] at e
  have gap : ∀ m : Name, m.Ok → Gap (95 :: (under m.path ++ (if m.args = [] then [] else underArgs m.args ++ [95]))) := by
    intro m hm
    cases hp : m.path with
    | nil => exact absurd hp hm.ne
    | cons w p => exact .inr ⟨_, by simp [under]; rfl⟩
  obtain ⟨e1, e2⟩ := cancel ha ha' (gap n hn) (gap n' hn') e
  refine ⟨e1, ?_⟩
  simp only [List.cons.injEq, true_and] at e2
  obtain ⟨p, as⟩ := n
  obtain ⟨p', as'⟩ := n'
  simp only at e2
  by_cases h : as = []
  · by_cases h' : as' = []
    · subst h h'
      simp only [if_true, List.append_nil] at e2
      have := under_inj (hn.class_ rfl) (hn'.class_ rfl) e2
      simp only at this
      rw [this]
    · subst h
      obtain ⟨s, c, e3, hc⟩ := under_last (hn.class_ rfl) hn.ne
      simp only [if_true, List.append_nil, h', if_false] at e2 e3
      rw [e2, ← List.append_assoc] at e3
      have := (List.append_inj' e3 rfl).2
      simp only [List.cons.injEq, and_true] at this
      subst this
      exact absurd hc (by decide)
  · by_cases h' : as' = []
    · subst h'
      obtain ⟨s, c, e3, hc⟩ := under_last (hn'.class_ rfl) hn'.ne
      simp only [if_true, List.append_nil, h, if_false] at e2 e3
      rw [← e2, ← List.append_assoc] at e3
      have := (List.append_inj' e3 rfl).2
      simp only [List.cons.injEq, and_true] at this
      subst this
      exact absurd hc (by decide)
    · simp only [h, h', if_false] at e2
      obtain ⟨e3, e4⟩ := under_args_inj (hn.tmpl h).1 (hn'.tmpl h').1 (hn.tmpl h).2 (hn'.tmpl h').2 h h' e2
      simp only at e3 e4
      rw [e3, e4]

/-! ### The name compared with pragmas, and the target -/

def joined : List Str → Str
  | [] => []
  | [w] => w
  | w :: p => w ++ 58 :: 58 :: joined p

private theorem ident_plain {w : Str} (hw : ∀ c ∈ w, idChar c = true) : ∀ c ∈ w, c ≠ 58 ∧ c ≠ 60 ∧ c ≠ 62 ∧ c ≠ 32 := by
  intro c hc
  have := hw c hc
  refine ⟨?_, ?_, ?_, ?_⟩ <;> (rintro rfl; exact absurd this (by decide))

private theorem plain_text {w : Str} (hw : ∀ c ∈ w, c ≠ 60 ∧ c ≠ 62 ∧ c ≠ 32) : ∀ (j : Nat) (r : Str), 2 ≤ j →
    plainName j 0 false (w ++ r) = w ++ plainName (j + w.length) 0 false r := by
  induction w with
  | nil => intro j r _; rfl
  | cons c w ih =>
    intro j r hj
    obtain ⟨h1, h2, h3⟩ := hw c (.head _)
    rw [List.cons_append, plainName, if_neg (by omega)]
    simp only [h1, h2, h3, if_false, if_true, Bool.false_eq_true]
    rw [ih (fun d hd => hw d (.tail _ hd)) (j + 1) r (by omega)]
    simp [Nat.add_assoc, Nat.add_comm 1]

private theorem plain_args {s : Str} (hs : ∀ c ∈ s, c ≠ 60 ∧ c ≠ 62) : ∀ (j : Nat) (sp : Bool), 2 ≤ j →
    plainName j 1 sp (s ++ [62]) = [] := by
  induction s with
  | nil =>
    intro j sp hj
    rw [List.nil_append, plainName, if_neg (by omega)]
    simp [plainName]
  | cons c s ih =>
    intro j sp hj
    obtain ⟨h1, h2⟩ := hs c (.head _)
    rw [List.cons_append, plainName, if_neg (by omega)]
    simp only [h1, h2, if_false, Nat.one_ne_zero]
    exact ih (fun d hd => hs d (.tail _ hd)) (j + 1) sp (by omega)

private theorem scope_joined {p : List Str} (h : p ≠ []) : scope p = 58 :: 58 :: joined p := by
  induction p with
  | nil => exact absurd rfl h
  | cons w p ih =>
    cases p with
    | nil => simp [scope, joined]; rfl
    | cons v p =>
      have := ih (by simp)
      simp only [scope, List.flatMap_cons] at this ⊢
      rw [this]
      rfl

private theorem joined_chars {p : List Str} (h : ∀ w ∈ p, ∀ c ∈ w, idChar c = true) : ∀ c ∈ joined p, c ≠ 60 ∧ c ≠ 62 ∧ c ≠ 32 := by
  induction p with
  | nil => simp [joined]
  | cons w p ih =>
    have hw : ∀ c ∈ w, c ≠ 60 ∧ c ≠ 62 ∧ c ≠ 32 := fun c hc => (ident_plain (h w (.head _)) c hc).2
    cases p with
    | nil => exact hw
    | cons v p =>
      intro c hc
      rw [joined] at hc
      · simp only [List.mem_append, List.mem_cons] at hc
        rcases hc with hc | rfl | rfl | hc
        · exact hw c hc
        · decide
        · decide
        · exact ih (fun x hx => h x (.tail _ hx)) c hc
      · simp

private theorem alnum_id {c : UInt8} (h : alnum c = true) : idChar c = true := by
  simp only [alnum, Bool.or_eq_true] at h
  simp only [idChar, idStart, Bool.or_eq_true]
  rcases h with (h | h) | h
  · exact .inl (.inl (.inr h))
  · exact .inl (.inr h)
  · exact .inr h

private theorem Name.Ok.chars {n : Name} (h : n.Ok) : ∀ w ∈ n.path, ∀ c ∈ w, idChar c = true := by
  intro w hw c hc
  by_cases ha : n.args = []
  · rcases tidy_chars (h.class_ ha w hw) c hc with h | rfl
    · exact alnum_id h
    · decide
  · exact alnum_id (((h.tmpl ha).1 w hw).2 c hc)

private theorem commas_chars {l : List Str} (h : ∀ w ∈ l, Smooth w) : ∀ c ∈ commas l, c ≠ 60 ∧ c ≠ 62 := by
  induction l with
  | nil => simp [commas]
  | cons w p ih =>
    have hw : ∀ c ∈ w, c ≠ 60 ∧ c ≠ 62 := fun c hc => by
      have := ident_plain (fun c hc => alnum_id ((h w (.head _)).2 c hc)) c hc
      exact ⟨this.2.1, this.2.2.1⟩
    cases p with
    | nil => exact hw
    | cons v p =>
      intro c hc
      rw [commas] at hc
      · simp only [List.mem_append, List.mem_cons] at hc
        rcases hc with hc | rfl | hc
        · exact hw c hc
        · decide
        · exact ih (fun x hx => h x (.tail _ hx)) c hc
      · simp

private theorem plain_name {n : Name} (h : n.Ok) : plainName 0 0 false n.text = joined n.path := by
  rw [Name.text, scope_joined h.ne]
  have e : ∀ r, plainName 0 0 false (58 :: 58 :: r) = plainName 2 0 false r := by
    intro r
    rw [plainName, if_pos (by decide), plainName, if_pos (by decide)]
  rw [List.cons_append, List.cons_append, e, plain_text (joined_chars h.chars) _ _ (by omega)]
  by_cases ha : n.args = []
  · simp [ha, plainName]
  · rw [if_neg ha, plainName, if_neg (by omega)]
    simp only [if_true, Nat.zero_add, Nat.one_ne_zero, if_false]
    rw [if_neg (by decide), plain_args (commas_chars (h.tmpl ha).2) _ _ (by omega), List.append_nil]

/-- Spec: the kinds of types. -/
inductive Kind
  | cls | struct | enum | enumClass
  deriving DecidableEq

def Kind.key : Kind → Str
  | .cls => b "class"
  | .struct => b "struct"
  | .enum => b "enum"
  | .enumClass => b "enum class"

/-- The word to name the type by elsewhere. -/
def Kind.word : Kind → Str
  | .enumClass => b "enum"
  | k => k.key

private theorem qualifier_eq (k : Kind) (s : Str) (hs : s.head? = some 58) : qualifier (k.key ++ [32] ++ s) = k.key ∧ bareType (k.key ++ [32] ++ s) = s := by
  cases s with
  | nil => simp at hs
  | cons c s =>
    simp at hs
    subst hs
    have hq : qualifier (k.key ++ [32] ++ 58 :: s) = k.key := by
      cases k <;> simp [qualifier, lead, Kind.key, b, List.isPrefixOf]
    refine ⟨hq, ?_⟩
    rw [bareType, hq, List.append_assoc, List.drop_left]
    rfl

private theorem text_head (n : Name) (h : n.Ok) : n.text.head? = some 58 := by
  rw [Name.text, scope_joined h.ne]; rfl

/-! ### Pragmas -/

/-- Spec: `#pragma omit action type`. -/
structure Dir where
  action : Str
  gap : Nat
  path : List Str

def Dir.text (d : Dir) : Str := b "#pragma omit " ++ d.action ++ List.replicate (d.gap + 1) 32 ++ joined d.path

structure Dir.Ok (d : Dir) : Prop where
  action : d.action ≠ [] ∧ ∀ c ∈ d.action, idChar c = true
  path : ∀ w ∈ d.path, w ≠ [] ∧ ∀ c ∈ w, idChar c = true
  ne : d.path ≠ []

/-- The directive, to omit a type of this name. -/
def Dir.omits (d : Dir) (action : Str) (n : Name) : Prop := d.action = action ∧ d.path = n.path

private def Dir.key (d : Dir) : Str := d.action ++ joined d.path

private theorem rm_replicate (n : Nat) : rmSpace (List.replicate n 32) = [] := by simp [rmSpace]

private theorem rm_append (x y : Str) : rmSpace (x ++ y) = rmSpace x ++ rmSpace y := by simp [rmSpace]

private theorem rm_id {x : Str} (h : ∀ c ∈ x, c ≠ 32) : rmSpace x = x := by
  rw [rmSpace, List.filter_eq_self]
  intro c hc
  simpa using h c hc

private theorem rm_dir {d : Dir} (h : d.Ok) : rmSpace (d.action ++ List.replicate (d.gap + 1) 32 ++ joined d.path) = d.key := by
  rw [rm_append, rm_append, rm_replicate, rm_id (fun c hc => (ident_plain h.action.2 c hc).2.2.2),
    rm_id (fun c hc => (joined_chars (fun w hw => (h.path w hw).2) c hc).2.2)]
  simp [Dir.key]

private theorem pragmas_dirs (ds : List (Dir ⊕ Str)) (hok : ∀ d, .inl d ∈ ds → d.Ok) (hother : ∀ t, .inr t ∈ ds → lead t (b "#pragma omit") = false) :
    pragmas (b "#pragma omit") (ds.map (Sum.elim Dir.text id)) = some ((ds.filterMap Sum.getLeft?).map Dir.key) := by
  induction ds with
  | nil => rfl
  | cons x ds ih =>
    have ih := ih (fun d hd => hok d (.tail _ hd)) (fun t ht => hother t (.tail _ ht))
    cases x with
    | inl d =>
      have e : Sum.elim Dir.text id (Sum.inl d) = b "#pragma omit" ++ (32 :: (d.action ++ List.replicate (d.gap + 1) 32 ++ joined d.path)) := by
        have : b "#pragma omit " = b "#pragma omit" ++ [32] := by decide
        simp [Dir.text, this]
      have hl : lead (b "#pragma omit" ++ (32 :: (d.action ++ List.replicate (d.gap + 1) 32 ++ joined d.path))) (b "#pragma omit") = true := by
        simp [lead]
      rw [List.map_cons, e, pragmas, if_pos hl, if_neg (by simp), ih]
      have : ∀ (p s : Str), (p ++ 32 :: s).drop (p.length + 1) = s := by intro p s; simp [List.drop_append]
      rw [this, rm_dir (hok d (.head _))]
      simp
    | inr t =>
      rw [List.map_cons, pragmas, if_neg (by simp [hother t (.head _)]), ih]
      rfl

/-- Spec: the lines of a file, directives and others, among them other pragmas such as `#pragma once`. -/
inductive Line
  | dir (d : Dir)
  | other (t : Str)

def Line.text : Line → Str
  | .dir d => d.text
  | .other t => t

def Line.Ok : Line → Prop
  | .dir d => d.Ok ∧ d.text.length ≤ 1036
  | .other t => 10 ∉ t ∧ (¬ b "#pragma" <+: t ∨
      ∃ c u, t = b "#pragma " ++ c :: u ∧ ¬ (c = 32 ∨ (9 ≤ c ∧ c ≤ 13)) ∧ ¬ b "omit" <+: c :: u)

def Line.dir? : Line → Option Dir
  | .dir d => some d
  | .other _ => none

def lines (ls : List Line) : Str := ls.flatMap fun l => l.text ++ [10]

private theorem literal_self (p s : Str) : literal p (p ++ s) = some (true, s) := by
  induction p with
  | nil => rfl
  | cons c p ih => rw [List.cons_append, literal, if_pos rfl, ih]

private theorem literal_other : ∀ (p t s : Str), 10 ∉ t → 10 ∉ p → p ≠ [] → ¬ p <+: t → ∃ t', literal p (t ++ 10 :: s) = some (false, t' ++ 10 :: s) ∧ 10 ∉ t'
  | [], _, _, _, _, h, _ => absurd rfl h
  | c :: p, [], s, _, hp, _, _ => ⟨[], by rw [List.nil_append, literal, if_neg (by rintro rfl; exact hp (.head _))], by simp⟩
  | c :: p, d :: t, s, ht, hp, _, h => by
    by_cases e : d = c
    · subst e
      rw [List.cons_append, literal, if_pos rfl]
      rw [List.cons_prefix_cons] at h
      have hne : p ≠ [] := by rintro rfl; exact h ⟨rfl, List.nil_prefix⟩
      exact literal_other p t s (fun h => ht (.tail _ h)) (fun h => hp (.tail _ h)) hne (fun h' => h ⟨rfl, h'⟩)
    · exact ⟨d :: t, by rw [List.cons_append, literal, if_neg e], ht⟩

private theorem nextLine_eq {t : Str} (h : 10 ∉ t) (s : Str) : nextLine (t ++ 10 :: s) = s := by
  induction t with
  | nil => rfl
  | cons c t ih =>
    rw [List.cons_append, nextLine, if_neg (by rintro rfl; exact h (.head _)), ih (fun h' => h (.tail _ h'))]

private theorem scanf_other {t : Str} (h : 10 ∉ t) (hp : ¬ b "#pragma" <+: t ∨
      ∃ c u, t = b "#pragma " ++ c :: u ∧ ¬ (c = 32 ∨ (9 ≤ c ∧ c ≤ 13)) ∧ ¬ b "omit" <+: c :: u) (s : Str) :
    ∃ t', scanf (t ++ 10 :: s) = some (none, t' ++ 10 :: s) ∧ 10 ∉ t' := by
  rcases hp with hp | ⟨c, u, rfl, hc, ho⟩
  · obtain ⟨t', e, ht'⟩ := literal_other (b "#pragma") t s h (by decide) (by decide) hp
    exact ⟨t', by rw [scanf, e], ht'⟩
  · have h1 : 10 ∉ c :: u := fun hm => h (List.mem_append.2 (.inr hm))
    obtain ⟨t', e, ht'⟩ := literal_other (b "omit") (c :: u) s h1 (by decide) (by decide) ho
    have e1 : b "#pragma " ++ c :: u ++ 10 :: s = b "#pragma" ++ (32 :: (c :: u ++ 10 :: s)) := by
      have : b "#pragma " = b "#pragma" ++ [32] := by decide
      simp [this]
    have sk : skipWhite (32 :: (c :: u ++ 10 :: s)) = c :: u ++ 10 :: s := by
      rw [skipWhite, if_pos (.inl rfl), List.cons_append, skipWhite, if_neg hc]
    refine ⟨t', ?_, ht'⟩
    rw [e1, scanf, literal_self]
    simp only [sk, e]

private theorem white_ident {c : UInt8} (h : idChar c = true) : ¬ (c = 32 ∨ (9 ≤ c ∧ c ≤ 13)) := by
  rintro (rfl | ⟨h1, h2⟩)
  · exact absurd h (by decide)
  · simp only [idChar, idStart, Bool.or_eq_true, beq_iff_eq, Bool.and_eq_true, decide_eq_true_eq, UInt8.le_iff_toNat_le, ← UInt8.toNat_inj,
      UInt8.reduceToNat] at h h1 h2
    omega

private theorem dir_no_nl {d : Dir} (h : d.Ok) : 10 ∉ d.action ++ List.replicate (d.gap + 1) 32 ++ joined d.path := by
  intro hc
  simp only [List.mem_append, List.mem_replicate] at hc
  rcases hc with (hc | hc) | hc
  · exact absurd (h.action.2 10 hc) (by decide)
  · exact absurd hc.2 (by decide)
  · have : ∀ (p : List Str), (∀ w ∈ p, ∀ c ∈ w, idChar c = true) → (10 : UInt8) ∉ joined p := by
      intro p
      induction p with
      | nil => simp [joined]
      | cons w p ih =>
        intro h hc
        cases p with
        | nil => exact absurd (h w (.head _) 10 hc) (by decide)
        | cons v p =>
          have hc : (10 : UInt8) ∈ w ++ 58 :: 58 :: joined (v :: p) := hc
          simp only [List.mem_append, List.mem_cons] at hc
          rcases hc with hc | hc | hc | hc
          · exact absurd (h w (.head _) 10 hc) (by decide)
          · exact absurd hc (by decide)
          · exact absurd hc (by decide)
          · exact ih (fun x hx => h x (.tail _ hx)) hc
    exact this d.path (fun w hw => (h.path w hw).2) hc

private theorem scanf_dir {d : Dir} (h : d.Ok) (hl : d.text.length ≤ 1036) (s : Str) :
    ∃ t, scanf (d.text ++ 10 :: s) = some (some t, 10 :: s) ∧ rmSpace t = d.key := by
  obtain ⟨t, ht⟩ : ∃ t, t = d.action ++ List.replicate (d.gap + 1) 32 ++ joined d.path := ⟨_, rfl⟩
  refine ⟨t, ?_, by rw [ht, rm_dir h]⟩
  have e : d.text ++ 10 :: s = b "#pragma" ++ (32 :: (b "omit" ++ 32 :: (t ++ 10 :: s))) := by
    have : b "#pragma omit " = b "#pragma" ++ 32 :: (b "omit" ++ [32]) := by decide
    rw [ht]; simp [Dir.text, this]
  have hlen : t.length ≤ 1023 := by
    have := congrArg List.length e
    have h1 : (b "#pragma").length = 7 := by decide
    have h2 : (b "omit").length = 4 := by decide
    simp [h1, h2] at this
    omega
  obtain ⟨c, r, hc⟩ : ∃ c r, t = c :: r ∧ idChar c = true := by
    cases ha : d.action with
    | nil => exact absurd ha h.action.1
    | cons c r => exact ⟨c, r ++ List.replicate (d.gap + 1) 32 ++ joined d.path, by rw [ht, ha]; simp, h.action.2 c (by simp [ha])⟩
  have sk : skipWhite (32 :: (t ++ 10 :: s)) = t ++ 10 :: s := by
    rw [skipWhite, if_pos (.inl rfl), hc.1, List.cons_append, skipWhite, if_neg (white_ident hc.2)]
  have sk2 : skipWhite (32 :: (b "omit" ++ 32 :: (t ++ 10 :: s))) = b "omit" ++ 32 :: (t ++ 10 :: s) := by
    rw [skipWhite, if_pos (.inl rfl)]
    show skipWhite (111 :: _) = _
    rw [skipWhite, if_neg (by decide)]
    rfl
  have tw : (t ++ 10 :: s).takeWhile (· != 10) = t := by
    rw [List.takeWhile_append_of_pos]
    · simp
    · intro a ha
      have := dir_no_nl h
      rw [← ht] at this
      simp only [bne_iff_ne, ne_eq]
      rintro rfl
      exact this ha
  rw [e, scanf, literal_self]
  simp only [sk2, literal_self, sk]
  obtain ⟨x, y, hxy⟩ : ∃ x y, t ++ 10 :: s = x :: y := by rw [hc.1]; exact ⟨_, _, rfl⟩
  have : (match t ++ 10 :: s with
      | [] => none
      | s => some (some ((s.takeWhile (· != 10)).take 1023), s.drop ((s.takeWhile (· != 10)).take 1023).length)) =
      (some (some t, 10 :: s) : Option (Option Str × Str)) := by
    rw [hxy]
    simp only [← hxy, tw, List.take_of_length_le hlen, List.drop_left]
  exact this

private theorem scanf_nl (s : Str) : scanf (10 :: s) = some (none, 10 :: s) := by
  have : b "#pragma" = 35 :: b "pragma" := by decide
  rw [scanf, this, literal, if_neg (by decide)]

/-- The directives of a file of lines are found. -/
theorem C79_base_file (ls : List Line) (h : ∀ l ∈ ls, l.Ok) (n : Nat) (hn : (lines ls).length < n) :
    baseFile n (lines ls) = (ls.filterMap Line.dir?).map fun d => d.action ++ joined d.path := by
  induction ls generalizing n with
  | nil =>
    cases n with
    | zero => rfl
    | succ n =>
      have : b "#pragma" = 35 :: b "pragma" := by decide
      simp [lines, baseFile, scanf, this, literal]
  | cons l ls ih =>
    have ih := ih fun x hx => h x (.tail _ hx)
    have e : lines (l :: ls) = l.text ++ 10 :: lines ls := by simp [lines]
    rw [e] at hn ⊢
    simp only [List.length_append, List.length_cons] at hn
    obtain ⟨n, rfl⟩ : ∃ m, n = m + 1 := ⟨n - 1, by omega⟩
    have hl := h l (.head _)
    cases l with
    | dir d =>
      obtain ⟨t, e1, e2⟩ := scanf_dir hl.1 hl.2 (lines ls)
      simp only [Line.text] at hn ⊢
      have hd : 1 ≤ d.text.length := by
        have : (b "#pragma omit ").length = 13 := by decide
        simp [Dir.text, this]; omega
      obtain ⟨n, rfl⟩ : ∃ m, n = m + 1 := ⟨n - 1, by omega⟩
      rw [baseFile, e1]
      simp only
      rw [baseFile, scanf_nl]
      simp only [nextLine, if_true]
      rw [ih n (by omega), e2]
      simp [Line.dir?, Dir.key]
    | other t =>
      obtain ⟨t', e1, ht'⟩ := scanf_other hl.1 hl.2 (lines ls)
      simp only [Line.text] at hn ⊢
      rw [baseFile, e1]
      simp only [nextLine_eq ht']
      rw [ih n (by omega)]
      rfl

/-! ### What the compiler sees -/

private theorem seen_nodup (l : List (Str × Option Desc)) : ∀ defined : List Str, (l.map (·.1)).Nodup → (∀ x ∈ l, x.1 ∉ defined) →
    seen defined l = l.filterMap (·.2) := by
  induction l with
  | nil => intros; rfl
  | cons x l ih =>
    intro df hn hd
    obtain ⟨g, d⟩ := x
    simp only [List.map_cons, List.nodup_cons] at hn
    rw [seen, if_neg (hd _ (.head _)), ih (g :: df) hn.2]
    · cases d <;> simp
    · intro y hy
      simp only [List.mem_cons, not_or]
      refine ⟨?_, hd y (.tail _ hy)⟩
      intro e
      exact hn.1 (List.mem_map.2 ⟨y, hy, e⟩)

/-- Spec: a registered type: its kind, its name, and the registration. -/
structure Typ where
  kind : Kind
  name : Name
  reg : Reg

structure Typ.Ok (t : Typ) : Prop where
  name : t.name.Ok
  type : type t.reg = t.kind.key ++ [32] ++ t.name.text

/-- The descriptor wanted. -/
def Typ.desc (t : Typ) (action : Str) (tree graph : List Str) : Desc :=
  ⟨action, templ t.reg, t.kind.word ++ [32] ++ t.name.text, tree.contains (joined t.name.path), graph.contains (joined t.name.path), t.reg⟩

private theorem item_eq {t : Typ} (h : t.Ok) (om tree graph : List Str) (a : Str) :
    item om tree graph a t.reg = (guard a t.name.text,
      if om.contains (a ++ joined t.name.path) = true then none else some (t.desc a tree graph)) := by
  obtain ⟨h1, h2⟩ := qualifier_eq t.kind t.name.text (text_head _ h.name)
  have h3 : target (type t.reg) = t.kind.word ++ [32] ++ t.name.text := by
    rw [target, h.type, h1, h2]
    cases t.kind <;> simp [Kind.key, Kind.word] <;> decide
  rw [item, h.type, h2, plain_name h.name, ← h.type, h3]
  rfl

private theorem text_inj {n n' : Name} (h : n.Ok) (h' : n'.Ok) (e : n.text = n'.text) : n = n' :=
  (C79_guard_partial (a := [97]) (a' := [97]) (by decide) (by decide) h h' (by rw [e])).2

private theorem reg_inj {t t' : Typ} (h : t.Ok) (h' : t'.Ok) (e : t.reg = t'.reg) : t.name = t'.name := by
  apply text_inj h.name h'.name
  rw [← (qualifier_eq t.kind t.name.text (text_head _ h.name)).2, ← h.type, e, h'.type, (qualifier_eq t'.kind t'.name.text (text_head _ h'.name)).2]

private def mine (a : Str) (r : Reg) (l : List (Str × Option Desc)) : List Desc :=
  (l.filterMap (·.2)).filter fun d => d.action == a && d.reg == r

private theorem mine_append (a : Str) (r : Reg) (l l' : List (Str × Option Desc)) : mine a r (l ++ l') = mine a r l ++ mine a r l' := by
  simp [mine]

private theorem mine_none {regs : List Typ} (h : ∀ t ∈ regs, t.Ok) {om tree graph : List Str} {a a' : Str} {t : Typ} (ht : t.Ok)
    (hn : a = a' → t.name ∉ regs.map Typ.name) : mine a t.reg (regs.map fun t => item om tree graph a' t.reg) = [] := by
  rw [mine, List.filter_eq_nil_iff]
  intro d hd
  simp only [List.mem_filterMap, List.mem_map] at hd
  obtain ⟨x, ⟨u, hu, rfl⟩, hx⟩ := hd
  rw [item_eq (h u hu)] at hx
  simp only at hx
  split at hx
  · simp at hx
  · simp only [Option.some.injEq] at hx
    subst hx
    simp only [Typ.desc, Bool.and_eq_true, beq_iff_eq, not_and]
    intro e e'
    exact hn e.symm (List.mem_map.2 ⟨u, hu, reg_inj (h u hu) ht e'⟩)

private theorem mine_one {regs : List Typ} (h : ∀ t ∈ regs, t.Ok) (hn : (regs.map Typ.name).Nodup) {om tree graph : List Str} {a : Str} {t : Typ}
    (ht : t ∈ regs) : mine a t.reg (regs.map fun t => item om tree graph a t.reg) =
      if om.contains (a ++ joined t.name.path) = true then [] else [t.desc a tree graph] := by
  obtain ⟨l, l', rfl⟩ := List.append_of_mem ht
  simp only [List.map_append, List.map_cons, List.nodup_append, List.nodup_cons] at hn
  rw [List.map_append, List.map_cons, mine_append, mine_none (fun u hu => h u (by simp [hu])) (h t ht)
    (fun _ hc => hn.2.2 _ hc _ (.head _) rfl), List.nil_append]
  rw [show ∀ x (l : List (Str × Option Desc)), x :: l = [x] ++ l from fun _ _ => rfl, mine_append,
    mine_none (fun u hu => h u (by simp [hu])) (h t ht) (fun _ => hn.2.1.1), List.append_nil, item_eq (h t ht), mine]
  split <;> simp [Typ.desc]

/-- The directives for an action: those of the header, and of its file and those of the actions before it. -/
def inForce (header : List Dir) (acts : List (Str × List Line)) : List Dir := header ++ acts.flatMap fun a => a.2.filterMap Line.dir?

private theorem joined_inj : ∀ {p q : List Str}, (∀ w ∈ p, w ≠ [] ∧ ∀ c ∈ w, idChar c = true) → (∀ w ∈ q, w ≠ [] ∧ ∀ c ∈ w, idChar c = true) →
    joined p = joined q → p = q := by
  have cut : ∀ {w v r r' : Str}, (∀ c ∈ w, idChar c = true) → (∀ c ∈ v, idChar c = true) → (r = [] ∨ r.head? = some 58) →
      (r' = [] ∨ r'.head? = some 58) → w ++ r = v ++ r' → w = v ∧ r = r' := by
    intro w
    induction w with
    | nil =>
      intro v r r' _ hv hr _ e
      cases v with
      | nil => exact ⟨rfl, e⟩
      | cons c v =>
        rcases hr with rfl | hr
        · simp at e
        · simp only [List.nil_append, List.cons_append] at e
          rw [e] at hr
          simp at hr
          subst hr
          exact absurd (hv 58 (.head _)) (by decide)
    | cons d w ih =>
      intro v r r' hw hv hr hr' e
      cases v with
      | nil =>
        rcases hr' with rfl | hr'
        · simp at e
        · simp only [List.nil_append, List.cons_append] at e
          rw [← e] at hr'
          simp at hr'
          subst hr'
          exact absurd (hw 58 (.head _)) (by decide)
      | cons c v =>
        simp only [List.cons_append, List.cons.injEq] at e
        obtain ⟨rfl, e⟩ := e
        obtain ⟨e1, e2⟩ := ih (fun x hx => hw x (.tail _ hx)) (fun x hx => hv x (.tail _ hx)) hr hr' e
        exact ⟨by rw [e1], e2⟩
  have tail : ∀ (w : Str) (p : List Str), ∃ r, joined (w :: p) = w ++ r ∧ (r = [] ∨ r.head? = some 58) ∧
      (r = [] → p = []) ∧ (r ≠ [] → r = 58 :: 58 :: joined p ∧ p ≠ []) := by
    intro w p
    cases p with
    | nil => exact ⟨[], by simp [joined], .inl rfl, fun _ => rfl, fun h => absurd rfl h⟩
    | cons v p => exact ⟨58 :: 58 :: joined (v :: p), rfl, .inr rfl, by simp, fun _ => ⟨rfl, by simp⟩⟩
  intro p
  induction p with
  | nil =>
    intro q _ hq e
    cases q with
    | nil => rfl
    | cons w q =>
      obtain ⟨r, er, _⟩ := tail w q
      rw [er] at e
      simp only [joined] at e
      have := (List.append_eq_nil_iff.1 e.symm).1
      exact absurd this (hq w (.head _)).1
  | cons w p ih =>
    intro q hp hq e
    obtain ⟨r, er, h1, h2, h3⟩ := tail w p
    cases q with
    | nil =>
      rw [er] at e
      simp only [joined] at e
      exact absurd (List.append_eq_nil_iff.1 e).1 (hp w (.head _)).1
    | cons v q =>
      obtain ⟨r', er', h1', h2', h3'⟩ := tail v q
      rw [er, er'] at e
      obtain ⟨rfl, rfl⟩ := cut (hp w (.head _)).2 (hq v (.head _)).2 h1 h1' e
      by_cases hr : r = []
      · rw [h2 hr, h2' hr]
      · have e1 := (h3 hr).1.symm.trans (h3' hr).1
        simp only [List.cons.injEq, true_and] at e1
        rw [ih (fun x hx => hp x (.tail _ hx)) (fun x hx => hq x (.tail _ hx)) e1]

private theorem omit_iff {ds : List Dir} (hds : ∀ d ∈ ds, d.Ok) {a : Str} {n : Name} (hn : n.Ok)
    (hclash : ∀ d ∈ ds, d.action = a ∨ ¬ d.action <+: a ∧ ¬ a <+: d.action) :
    (ds.map fun d => d.action ++ joined d.path).contains (a ++ joined n.path) = true ↔ ∃ d ∈ ds, d.omits a n := by
  have hw : ∀ w ∈ n.path, w ≠ [] ∧ ∀ c ∈ w, idChar c = true := by
    intro w hw
    refine ⟨?_, hn.chars w hw⟩
    rintro rfl
    by_cases h : n.args = []
    · exact absurd (hn.class_ h [] hw) (by decide)
    · exact ((hn.tmpl h).1 [] hw).1 rfl
  rw [List.contains_iff_mem, List.mem_map]
  constructor
  · rintro ⟨d, hd, e⟩
    rcases hclash d hd with h | ⟨h1, h2⟩
    · refine ⟨d, hd, h, ?_⟩
      rw [h, List.append_cancel_left_eq] at e
      exact joined_inj (hds d hd).path hw e
    · rcases List.prefix_or_prefix_of_prefix (⟨_, e⟩ : d.action <+: a ++ joined n.path) (List.prefix_append a _) with h | h
      · exact absurd h h1
      · exact absurd h h2
  · rintro ⟨d, hd, rfl, h⟩
    exact ⟨d, hd, by rw [h]⟩

private theorem run_none (regs : List Typ) (hregs : ∀ t ∈ regs, t.Ok) (tree graph : List Str) (t : Typ) (ht : t.Ok) (a : Str) :
    ∀ (acts : List (Str × Str)), a ∉ acts.map (·.1) → ∀ om, mine a t.reg (run om tree graph (regs.map Typ.reg) acts) = []
  | [], _, _ => rfl
  | (a', f) :: acts, h, om => by
    simp only [List.map_cons, List.mem_cons, not_or] at h
    rw [run, mine_append, run_none regs hregs tree graph t ht a acts h.2, List.append_nil, List.map_map]
    exact mine_none hregs ht fun e => absurd e h.1

private theorem run_mine (regs : List Typ) (hregs : ∀ t ∈ regs, t.Ok) (hn : (regs.map Typ.name).Nodup) (tree graph : List Str)
    (t : Typ) (ht : t ∈ regs) (a : Str) (ls : List Line) (post : List (Str × List Line)) (hpost : a ∉ post.map (·.1)) (hls : ∀ l ∈ ls, l.Ok) :
    ∀ (pre : List (Str × List Line)) (header : List Dir), (∀ x ∈ pre, ∀ l ∈ x.2, l.Ok) → a ∉ pre.map (·.1) →
    mine a t.reg (run (header.map fun d => d.action ++ joined d.path) tree graph (regs.map Typ.reg)
        ((pre ++ (a, ls) :: post).map fun a => (a.1, lines a.2))) =
      if ((inForce header (pre ++ [(a, ls)])).map fun d => d.action ++ joined d.path).contains (a ++ joined t.name.path) = true then []
      else [t.desc a tree graph]
  | [], header, _, _ => by
    rw [List.nil_append, List.map_cons, run, C79_base_file ls hls _ (Nat.lt_succ_self _), mine_append,
      run_none regs hregs tree graph t (hregs t ht) a _ (by simpa using hpost), List.append_nil, List.map_map]
    refine (mine_one hregs hn ht).trans ?_
    rw [inForce, List.map_append, List.nil_append, List.flatMap_cons, List.flatMap_nil, List.append_nil]
  | (a', ls') :: pre, header, hpre, ha => by
    simp only [List.map_cons, List.mem_cons, not_or] at ha
    rw [List.cons_append, List.map_cons, run, C79_base_file ls' (hpre _ (.head _)) _ (Nat.lt_succ_self _), mine_append, List.map_map,
      show mine a t.reg (regs.map (item _ tree graph a' ∘ Typ.reg)) = [] from mine_none hregs (hregs t ht) fun e => absurd e ha.1,
      List.nil_append, ← List.map_append, run_mine regs hregs hn tree graph t ht a ls post hpost hls pre _
        (fun x hx => hpre x (.tail _ hx)) ha.2]
    rw [inForce, inForce, List.cons_append, List.flatMap_cons, List.append_assoc]

private theorem run_guards (regs : List Typ) (hregs : ∀ t ∈ regs, t.Ok) (hn : (regs.map Typ.name).Nodup) (tree graph : List Str) :
    ∀ (acts : List (Str × Str)) (om : List Str), (∀ x ∈ acts, tidy x.1 = true) → (acts.map (·.1)).Nodup →
    ((run om tree graph (regs.map Typ.reg) acts).map (·.1)).Nodup ∧
      ∀ g ∈ (run om tree graph (regs.map Typ.reg) acts).map (·.1), ∃ x ∈ acts, ∃ t ∈ regs, g = guard x.1 t.name.text
  | [], _, _, _ => by simp [run]
  | (a, f) :: acts, om, ha, hnd => by
    simp only [List.map_cons, List.nodup_cons] at hnd
    obtain ⟨h1, h2⟩ := run_guards regs hregs hn tree graph acts (om ++ baseFile (f.length + 1) f) (fun x hx => ha x (.tail _ hx)) hnd.2
    have e : (regs.map Typ.reg).map (fun r => (item (om ++ baseFile (f.length + 1) f) tree graph a r).1) = regs.map fun t => guard a t.name.text := by
      rw [List.map_map]
      apply List.map_congr_left
      intro t ht
      simp only [Function.comp]
      rw [item_eq (hregs t ht)]
    have e' : (run om tree graph (regs.map Typ.reg) ((a, f) :: acts)).map (·.1) =
        (regs.map fun t => guard a t.name.text) ++ (run (om ++ baseFile (f.length + 1) f) tree graph (regs.map Typ.reg) acts).map (·.1) := by
      rw [run, List.map_append, List.map_map]
      exact congrArg (· ++ _) e
    rw [e']
    constructor
    · rw [List.nodup_append]
      refine ⟨?_, h1, ?_⟩
      · rw [List.Nodup, List.pairwise_map] at hn ⊢
        refine List.Pairwise.imp_of_mem ?_ hn
        intro x y hx hy hne hg
        exact hne (C79_guard_partial (ha _ (.head _)) (ha _ (.head _)) (hregs x hx).name (hregs y hy).name hg).2
      · intro g hg g' hg' hgg
        subst hgg
        obtain ⟨t, ht, rfl⟩ := List.mem_map.1 hg
        obtain ⟨x, hx, u, hu, hxu⟩ := h2 _ hg'
        have := (C79_guard_partial (ha _ (.head _)) (ha x (.tail _ hx)) (hregs t ht).name (hregs u hu).name hxu).1
        exact hnd.1 (List.mem_map.2 ⟨x, hx, this.symm⟩)
    · intro g hg
      rcases List.mem_append.1 hg with hg | hg
      · obtain ⟨t, ht, rfl⟩ := List.mem_map.1 hg
        exact ⟨_, .head _, t, ht, rfl⟩
      · obtain ⟨x, hx, t, ht, h⟩ := h2 g hg
        exact ⟨x, .tail _ hx, t, ht, h⟩

/-- Everything written has a guard, so reading it twice is as good as once. -/
theorem C79_twice (l : List (Str × Option Desc)) : seen [] (l ++ l) = seen [] l := by
  have none : ∀ (l : List (Str × Option Desc)) (df : List Str), (∀ x ∈ l, x.1 ∈ df) → seen df l = [] := by
    intro l
    induction l with
    | nil => intros; rfl
    | cons x l ih => intro df h; rw [seen, if_pos (h x (.head _)), ih df fun y hy => h y (.tail _ hy)]
  have gen : ∀ (l l' : List (Str × Option Desc)) (df : List Str), (∀ x ∈ l', x.1 ∈ df ∨ x ∈ l) → seen df (l ++ l') = seen df l := by
    intro l
    induction l with
    | nil => intro l' df h; exact none l' df fun x hx => (h x hx).elim id (by simp)
    | cons y l ih =>
      intro l' df h
      obtain ⟨g, d⟩ := y
      rw [List.cons_append, seen, seen]
      split
      · rename_i hg
        apply ih
        intro x hx
        rcases h x hx with h | h
        · exact .inl h
        · rcases List.mem_cons.1 h with rfl | h
          · exact .inl hg
          · exact .inr h
      · rw [ih]
        intro x hx
        rcases h x hx with h | h
        · exact .inl (.tail _ h)
        · rcases List.mem_cons.1 h with rfl | h
          · exact .inl (.head _)
          · exact .inr h
  exact gen l l [] fun x hx => .inr hx

/-- Directives of the header given to an action that is not run, or to one whose name begins with, or is the beginning of,
the name of the action, are excluded by `hclash`. -/
theorem C79_run_partial (header : List (Dir ⊕ Str)) (hok : ∀ d, .inl d ∈ header → d.Ok)
    (hother : ∀ t, .inr t ∈ header → lead t (b "#pragma omit") = false) (tree graph : List Str) (regs : List Typ) (hregs : ∀ t ∈ regs, t.Ok)
    (hn : (regs.map Typ.name).Nodup) (acts : List (Str × List Line)) (hacts : ∀ x ∈ acts, tidy x.1 = true ∧ ∀ l ∈ x.2, l.Ok)
    (hnd : (acts.map (·.1)).Nodup) (pre post : List (Str × List Line)) (a : Str) (ls : List Line) (hsplit : acts = pre ++ (a, ls) :: post)
    (hclash : ∀ d ∈ inForce (header.filterMap Sum.getLeft?) (pre ++ [(a, ls)]), d.action = a ∨ ¬ d.action <+: a ∧ ¬ a <+: d.action)
    (t : Typ) (ht : t ∈ regs) :
    ∃ om, pragmas (b "#pragma omit") (header.map (Sum.elim Dir.text id)) = some om ∧
      ((∃ d ∈ inForce (header.filterMap Sum.getLeft?) (pre ++ [(a, ls)]), d.omits a t.name) →
        (seen [] (run om tree graph (regs.map Typ.reg) (acts.map fun a => (a.1, lines a.2)))).filter (fun d => d.action == a && d.reg == t.reg) = []) ∧
      ((¬ ∃ d ∈ inForce (header.filterMap Sum.getLeft?) (pre ++ [(a, ls)]), d.omits a t.name) →
        (seen [] (run om tree graph (regs.map Typ.reg) (acts.map fun a => (a.1, lines a.2)))).filter (fun d => d.action == a && d.reg == t.reg) =
          [t.desc a tree graph]) := by
  refine ⟨_, pragmas_dirs header hok hother, ?_⟩
  have hg := (run_guards regs hregs hn tree graph (acts.map fun a => (a.1, lines a.2)) ((header.filterMap Sum.getLeft?).map Dir.key)
    (fun x hx => by obtain ⟨y, hy, rfl⟩ := List.mem_map.1 hx; exact (hacts y hy).1) (by simpa [List.map_map, Function.comp_def] using hnd)).1
  rw [seen_nodup _ [] hg (by simp)]
  subst hsplit
  simp only [List.map_append, List.map_cons, List.nodup_append, List.nodup_cons] at hnd
  have hm := run_mine regs hregs hn tree graph t ht a ls post hnd.2.1.1 (hacts (a, ls) (by simp)).2 pre (header.filterMap Sum.getLeft?)
    (fun x hx => (hacts x (by simp [hx])).2) (fun hc => hnd.2.2 _ hc _ (.head _) rfl)
  have hfd : ∀ d ∈ inForce (header.filterMap Sum.getLeft?) (pre ++ [(a, ls)]), d.Ok := by
    intro d hd
    rcases List.mem_append.1 hd with hd | hd
    · obtain ⟨x, hx, e⟩ := List.mem_filterMap.1 hd
      cases x with
      | inl d' => simp only [Sum.getLeft?, Option.some.injEq] at e; subst e; exact hok _ hx
      | inr _ => simp at e
    · obtain ⟨x, hx, hd⟩ := List.mem_flatMap.1 hd
      obtain ⟨l, hl, e⟩ := List.mem_filterMap.1 hd
      have hx : x ∈ pre ++ (a, ls) :: post := by
        rcases List.mem_append.1 hx with h | h
        · simp [h]
        · simp only [List.mem_singleton] at h; simp [h]
      have := (hacts x hx).2 l hl
      cases l with
      | dir d' => simp only [Line.dir?, Option.some.injEq] at e; subst e; exact this.1
      | other _ => simp [Line.dir?] at e
  have hiff := omit_iff hfd (hregs t ht).name hclash
  constructor
  · intro h
    refine Eq.trans hm ?_
    rw [if_pos (hiff.2 h)]
  · intro h
    refine Eq.trans hm ?_
    rw [if_neg (fun hc => h (hiff.1 hc))]

/-- Spec: a directive that marks a class as the node of a tree, or of a graph. -/
structure Mark where
  gap : Nat
  path : List Str

def Mark.text (word : Str) (m : Mark) : Str := word ++ 32 :: (List.replicate m.gap 32 ++ joined m.path)

structure Mark.Ok (m : Mark) : Prop where
  path : ∀ w ∈ m.path, w ≠ [] ∧ ∀ c ∈ w, idChar c = true

/-- A type is marked just if a directive names it, whatever the word (`#pragma treenode` or `#pragma graphnode`). -/
theorem C79_marks (word : Str) (header : List (Mark ⊕ Str)) (hok : ∀ m, .inl m ∈ header → m.Ok)
    (hother : ∀ t, .inr t ∈ header → lead t word = false) : ∃ l, pragmas word (header.map (Sum.elim (Mark.text word) id)) = some l ∧
    ∀ n : Name, n.Ok → (l.contains (joined n.path) = true ↔ ∃ m, .inl m ∈ header ∧ m.path = n.path) := by
  refine ⟨(header.filterMap Sum.getLeft?).map fun m => joined m.path, ?_, ?_⟩
  · induction header with
    | nil => rfl
    | cons x ds ih =>
      have ih := ih (fun d hd => hok d (.tail _ hd)) (fun t ht => hother t (.tail _ ht))
      cases x with
      | inl m =>
        have hl : lead (m.text word) word = true := by simp [lead, Mark.text]
        rw [List.map_cons, Sum.elim_inl, pragmas, if_pos hl, if_neg (by simp [Mark.text]), ih]
        have : ∀ (p s : Str), (p ++ 32 :: s).drop (p.length + 1) = s := by intro p s; simp [List.drop_append]
        rw [Mark.text, this, rm_append, rm_replicate, rm_id (fun c hc => (joined_chars (fun w hw => ((hok m (.head _)).path w hw).2) c hc).2.2)]
        simp
      | inr t =>
        rw [List.map_cons, pragmas, if_neg (by simp [hother t (.head _)]), ih]
        rfl
  · intro n hn
    have hw : ∀ w ∈ n.path, w ≠ [] ∧ ∀ c ∈ w, idChar c = true := by
      intro w hw
      refine ⟨?_, hn.chars w hw⟩
      rintro rfl
      by_cases h : n.args = []
      · exact absurd (hn.class_ h [] hw) (by decide)
      · exact ((hn.tmpl h).1 [] hw).1 rfl
    rw [List.contains_iff_mem, List.mem_map]
    constructor
    · rintro ⟨m, hm, e⟩
      obtain ⟨x, hx, ex⟩ := List.mem_filterMap.1 hm
      cases x with
      | inl m' =>
        simp only [Sum.getLeft?, Option.some.injEq] at ex
        subst ex
        exact ⟨m', hx, joined_inj (hok m' hx).path hw e⟩
      | inr _ => simp at ex
    · rintro ⟨m, hm, e⟩
      exact ⟨m, List.mem_filterMap.2 ⟨_, hm, rfl⟩, by rw [e]⟩

/-! ### Examples -/

/-- What the compiler gets: the action, the template parameters, and the type of each descriptor for the types of `src`, a
header with the pragmas `header`. -/
def compiled (header : List String) (src : String) (acts : List (String × String)) : Option (List (Str × Str × Str)) :=
  (Top.file ⟨false, false⟩ (Top.words src)).bind fun regs => (pragmas (b "#pragma omit") (header.map b)).map fun om =>
    (seen [] (run om [] [] regs (acts.map fun a => (b a.1, b a.2)))).map fun d => (d.action, d.templ, d.target)

/-- Four types; `n::A` is omitted for `pack` by a file, and `V` for `xml_pack` by the header. -/
example : compiled ["#pragma omit xml_pack V", "#pragma once"]
    "template < class T > struct V { T x ; } ; namespace n { class A { int a ; } ; } struct A { int x ; } ; enum class E { e } ;"
    [("xml_pack", "#include <a>\n#pragma omit  pack n::A\n"), ("pack", "")] =
    some [(b "xml_pack", [], b "class ::n::A"), (b "xml_pack", [], b "struct ::A"), (b "xml_pack", [], b "enum ::E"),
      (b "pack", b "< class T > ", b "struct ::V<T>"), (b "pack", [], b "struct ::A"), (b "pack", [], b "enum ::E")] := by
  decide +kernel

/-- Two actions, three types, directives in the header and in a file. -/
example : ∃ (header : List (Dir ⊕ Str)) (regs : List Typ) (acts pre post : List (Str × List Line)) (a : Str) (ls : List Line) (t u : Typ),
    (∀ d, .inl d ∈ header → d.Ok) ∧ (∀ t, .inr t ∈ header → lead t (b "#pragma omit") = false) ∧ (∀ t ∈ regs, t.Ok) ∧
    (regs.map Typ.name).Nodup ∧ (∀ x ∈ acts, tidy x.1 = true ∧ ∀ l ∈ x.2, l.Ok) ∧ (acts.map (·.1)).Nodup ∧ acts = pre ++ (a, ls) :: post ∧
    (∀ d ∈ inForce (header.filterMap Sum.getLeft?) (pre ++ [(a, ls)]), d.action = a ∨ ¬ d.action <+: a ∧ ¬ a <+: d.action) ∧
    t ∈ regs ∧ u ∈ regs ∧ (∃ d ∈ inForce (header.filterMap Sum.getLeft?) (pre ++ [(a, ls)]), d.omits a t.name) ∧
    ¬ ∃ d ∈ inForce (header.filterMap Sum.getLeft?) (pre ++ [(a, ls)]), d.omits a u.name := by
  let A : Typ := ⟨.cls, ⟨[b "n", b "A_1"], []⟩, .cls (b "class ::n::A_1") [] [] [] []⟩
  let V : Typ := ⟨.struct, ⟨[b "V"], [b "T", b "U"]⟩, .cls (b "struct ::V<T,U>") [] (b "< class T , class U > ") [] []⟩
  let E : Typ := ⟨.enumClass, ⟨[b "A"], []⟩, .enum (b "enum class ::A") [] []⟩
  refine ⟨[.inl ⟨b "pack", 0, [b "n", b "A_1"]⟩, .inr (b "#pragma once")], [A, V, E],
    [(b "xml_pack", [.other (b "#pragma once"), .dir ⟨b "pack", 2, [b "V"]⟩]), (b "pack", [])],
    [(b "xml_pack", [.other (b "#pragma once"), .dir ⟨b "pack", 2, [b "V"]⟩])], [], b "pack", [], V, E, ?_, ?_, ?_, by decide, ?_, by decide, rfl, ?_,
    by simp, by simp, ?_, ?_⟩
  · intro d hd
    simp only [List.mem_cons, Sum.inl.injEq, List.not_mem_nil, or_false, reduceCtorEq] at hd
    subst hd
    exact ⟨by decide, by decide, by decide⟩
  · intro t ht
    simp only [List.mem_cons, Sum.inr.injEq, List.not_mem_nil, or_false, reduceCtorEq, false_or] at ht
    subst ht
    decide
  · intro t ht
    simp only [List.mem_cons, List.not_mem_nil, or_false] at ht
    rcases ht with rfl | rfl | rfl
    · exact ⟨⟨by decide, by decide, fun h => absurd rfl h⟩, by decide⟩
    · exact ⟨⟨by decide, by decide, by unfold Smooth; decide⟩, by decide⟩
    · exact ⟨⟨by decide, by decide, fun h => absurd rfl h⟩, by decide⟩
  · intro x hx
    simp only [List.mem_cons, List.not_mem_nil, or_false] at hx
    rcases hx with rfl | rfl
    · refine ⟨by decide, ?_⟩
      intro l hl
      simp only [List.mem_cons, List.not_mem_nil, or_false] at hl
      rcases hl with rfl | rfl
      · exact ⟨by decide, .inr ⟨111, b "nce", by decide, by decide, by decide⟩⟩
      · exact ⟨⟨by decide, by decide, by decide⟩, by decide⟩
    · exact ⟨by decide, by simp⟩
  · intro d hd
    simp [inForce, Line.dir?] at hd
    rcases hd with rfl | rfl <;> exact .inl rfl
  · exact ⟨⟨b "pack", 2, [b "V"]⟩, by simp [inForce, Line.dir?], rfl, rfl⟩
  · rintro ⟨d, hd, hp⟩
    simp [inForce, Line.dir?] at hd
    rcases hd with rfl | rfl <;> exact absurd hp.2 (by decide)

/-- A member of a class template is named without the template arguments. -/
theorem C79_member : compiled ["#pragma omit pack A::E"] "template < class T > struct A { enum E { e } ; T t ; } ;" [("pack", "")] =
    some [(b "pack", b "< class T > ", b "struct ::A<T>")] := by
  decide +kernel

/-! ### What goes wrong -/

/-- Specialisations of a class template that differ only in punctuation have the same guard: the second gets no descriptor. -/
theorem C79_specialisation_fails :
    compiled [] "template < > struct V < int * > { int x ; } ; template < > struct V < int & > { int y ; } ;" [("pack", "")] =
      some [(b "pack", [], b "struct ::V< int * > ")] := by
  decide +kernel

/-- So do a name with two underscores and a name in a namespace, -/
theorem C79_underscores_fails :
    compiled [] "struct a__b { int x ; } ; namespace a { struct b { int y ; } ; }" [("pack", "")] = some [(b "pack", [], b "struct ::a__b")] := by
  decide +kernel

/-- and class templates, where the name of one and its parameters are read as those of another. -/
theorem C79_parameters_fails :
    compiled [] "template < class U > struct A_T { U u ; } ; template < class T , class U > struct A { T t ; } ;" [("pack", "")] =
      some [(b "pack", b "< class U > ", b "struct ::A_T<U>")] := by
  decide +kernel

/-- The action and the type of a directive are joined without a mark between them, so that it can omit another type for
another action. -/
theorem C79_omit_fails : compiled ["#pragma omit xml _packX"] "struct X { int x ; } ;" [("xml_pack", "")] = some [] := by
  decide +kernel

/-- Behind a tab the directive is not obeyed. -/
theorem C79_tab_fails : compiled ["#pragma omit pack\tX"] "struct X { int x ; } ;" [("pack", "")] = some [(b "pack", [], b "struct ::X")] := by
  decide +kernel

/-- Nor is that of a file with DOS line ends, -/
theorem C79_dos_fails : compiled [] "struct X { int x ; } ;" [("pack", "#pragma omit pack X\r\n")] = some [(b "pack", [], b "struct ::X")] := by
  decide +kernel

/-- nor one indented in a file, -/
theorem C79_indented_fails : compiled [] "struct X { int x ; } ;" [("pack", " #pragma omit pack X\n")] = some [(b "pack", [], b "struct ::X")] := by
  decide +kernel

/-- nor one in a file read later. -/
theorem C79_order_fails :
    compiled [] "struct X { int x ; } ;" [("pack", ""), ("unpack", "#pragma omit pack X\n#pragma omit unpack X\n")] =
      some [(b "pack", [], b "struct ::X")] := by
  decide +kernel

/-- `#pragma omit` with nothing behind it ends the program, whatever else is in the header. -/
theorem C79_bare_fails (l l' : List Str) : pragmas (b "#pragma omit") (l ++ b "#pragma omit" :: l') = none := by
  have h0 : pragmas (b "#pragma omit") (b "#pragma omit" :: l') = none := by
    rw [pragmas, if_pos (by decide), if_pos (by decide)]
  induction l with
  | nil => exact h0
  | cons t l ih =>
    rw [List.cons_append, pragmas, ih]
    simp

/-- The type of a `typedef struct` whose name begins with `struct`, `class` or `enum` is mangled. -/
theorem C79_typedef_fails : compiled [] "typedef struct { int x ; } structure ;" [("pack", "")] = some [(b "pack", [], b "struct ure")] := by
  decide +kernel

end Verif.Emit
