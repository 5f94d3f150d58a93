import Verif.Qt
import Verif.Props.Members
/-
C132: the option -qt.
-/
namespace Verif.Qt
open Verif.Tok (Str b)
open Verif.Decl Verif.Decl.C65 Verif.Decl.C66

namespace C132

/-- Something in a class that uses Qt. -/
inductive Elem
  | item (i : Item)                       -- something of C++ other than an access label
  | label (kw : Str) (slots : Bool)       -- public: or public slots:
  | object                                -- Q_OBJECT
  | info (w : Str) (args : List Str)      -- Q_PROPERTY(…), Q_ENUMS(…), Q_CLASSINFO(…)
  | signals                               -- signals:
  | slots                                 -- slots:

def Elem.toks : Elem → List Str
  | .item i => i.toks
  | .label kw s => kw :: (if s then [b "slots", b ":"] else [b ":"])
  | .object => [b "Q_OBJECT"]
  | .info w a => w :: b "(" :: (a ++ [b ")"])
  | .signals => [b "signals", b ":"]
  | .slots => [b "slots", b ":"]

def Elem.Ok : Elem → Prop
  | .item i => i.Ok ∧ (∀ kw, i ≠ .label kw) ∧ ∀ t ∈ i.toks, t ∉ words
  | .label kw _ => kw = b "private" ∨ kw = b "protected" ∨ kw = b "public"
  | .info w a => (w = b "Q_PROPERTY" ∨ w = b "Q_ENUMS" ∨ w = b "Q_CLASSINFO") ∧ Bal (b "(") (b ")") a
  | _ => True

/-- `Q_OBJECT` has no semicolon behind it. -/
def Good : List Elem → Prop
  | .object :: .item .semi :: _ => False
  | _ :: es => Good es
  | [] => True

/-- The C++ in it. -/
def Elem.items : Elem → List Item
  | .item i => [i]
  | _ => []

/-- The class without Qt: macros are nothing, signals are protected, and slots are functions. -/
def Elem.cpp : Elem → List Item
  | .item i => [i]
  | .label kw _ => [.label kw]
  | .signals => [.label (b "protected")]
  | .slots => [.label (b "public")]
  | _ => []

/-- The members to be described; `h` says that those of the current section are not. -/
def described (o : Opts) : Bool → List Elem → List (Str × Kind)
  | _, [] => []
  | h, .item i :: es => (if h = true then [] else i.members o) ++ described o h es
  | _, .label kw _ :: es => described o (o.respect && decide (kw ≠ b "public")) es
  | h, .object :: es => described o h es
  | h, .info _ _ :: es => described o h es
  | _, .signals :: es => described o true es
  | _, .slots :: es => described o false es

/-- The enumerations to be registered; `p` says that the current section is not public. -/
def enumerations : Bool → List Elem → List (Bool × Str × List Str)
  | _, [] => []
  | p, .item i :: es => (if p = true then [] else i.enums) ++ enumerations p es
  | _, .label kw _ :: es => enumerations (decide (kw ≠ b "public")) es
  | p, .object :: es => enumerations p es
  | p, .info _ _ :: es => enumerations p es
  | _, .signals :: es => enumerations true es
  | _, .slots :: es => enumerations false es

end C132
open C132

/-! ### Reading goes forward -/

private theorem next_suf {r r' : Rd} (h : r.next = some r') : r'.rest <:+ r.rest := by
  cases r with | mk a c d e => cases e with
    | nil => simp [Rd.next] at h
    | cons t e => simp [Rd.next] at h; subst h; exact List.suffix_cons _ _

private theorem gobbleLoop_suf (left right : Str) : ∀ (l : List Str) (cnt : Int) (x y : Str) (r' : Rd),
    gobbleLoop left right cnt x y l = some r' → r'.rest <:+ l := by
  intro l
  induction l with
  | nil => intro cnt x y r' h; simp [gobbleLoop] at h
  | cons t l ih =>
    intro cnt x y r' h
    rw [gobbleLoop] at h
    split at h
    · cases h; exact List.suffix_cons _ _
    · dsimp only at h
      generalize (if t = right then (if t = left then cnt + 1 else cnt) - 1 else if t = left then cnt + 1 else cnt) = n at h
      split at h
      · split at h
        · cases h; exact List.suffix_cons _ _
        · exact (ih _ _ _ _ h).trans (List.suffix_cons _ _)
      · exact (ih _ _ _ _ h).trans (List.suffix_cons _ _)

private theorem gobble_suf {r r' : Rd} {left right : Str} (h : gobble r left right = some r') : r'.rest <:+ r.rest := by
  rw [gobble] at h
  split at h
  · cases h; exact List.suffix_refl _
  · exact gobbleLoop_suf _ _ _ _ _ _ _ h

private theorem skip_suf {r r' : Rd} {p : Str → Bool} (h : r.skipTo p = some r') : r'.rest <:+ r.rest := by
  rw [Rd.skipTo] at h
  cases r with
  | mk a c d l =>
    dsimp only at h ⊢
    induction l generalizing a c d with
    | nil =>
      rw [skipTo.eq_def] at h
      dsimp only at h
      split at h
      · cases h; exact List.suffix_refl _
      · simp at h
    | cons t l ih =>
      rw [skipTo.eq_def] at h
      dsimp only at h
      split at h
      · cases h; exact List.suffix_refl _
      · exact (ih _ _ _ h).trans (List.suffix_cons _ _)

private theorem opt_suf {r r' : Rd} {c : Prop} [Decidable c] {f : Option Rd} (hf : ∀ x, f = some x → x.rest <:+ r.rest)
    (h : (if c then f else some r) = some r') : r'.rest <:+ r.rest := by
  split at h
  · exact hf _ h
  · cases h; exact List.suffix_refl _

private theorem jp {α β : Type} {c : Prop} [Decidable c] {x y : Option α} {g : α → Option β} {z : β}
    (h : (if c then x >>= g else y >>= g) = some z) : ∃ a, (if c then x else y) = some a ∧ g a = some z := by
  split at h
  · rename_i hc; rw [if_pos hc]; exact Option.bind_eq_some_iff.1 h
  · rename_i hc; rw [if_neg hc]; exact Option.bind_eq_some_iff.1 h

private theorem enumLoop_suf : ∀ (n : Nat) (keys : List Str) (r : Rd) (x : List Str × Rd),
    enumLoop n keys r = some x → x.2.rest <:+ r.rest := by
  intro n
  induction n with
  | zero => intro keys r x h; simp [enumLoop] at h
  | succ n ih =>
    intro keys r x h
    rw [enumLoop] at h
    split at h
    · cases h; exact List.suffix_refl _
    · dsimp only at h
      split at h
      · simp at h
      · rename_i r1 h1
        obtain ⟨r2, h2, h3⟩ := Option.bind_eq_some_iff.1 h1
        have h4 : r2.rest <:+ r.rest := by
          refine opt_suf ?_ h2
          intro y hy
          obtain ⟨r3, h5, h6⟩ := Option.bind_eq_some_iff.1 hy
          exact (skip_suf h6).trans (next_suf h5)
        exact (ih _ _ _ h).trans ((next_suf h3).trans h4)

private theorem enumAction_suf {r : Rd} {x : Str × Option (List Str) × Rd} (h : enumAction r = some x) : x.2.2.rest <:+ r.rest := by
  rw [enumAction] at h
  obtain ⟨r1, h1, h⟩ := jp h
  have s1 := opt_suf (fun y hy => next_suf hy) h1
  obtain ⟨r2, h2, h⟩ := Option.bind_eq_some_iff.1 h
  have s2 := next_suf h2
  obtain ⟨r3, h3, h⟩ := jp h
  have s3 := opt_suf (fun y hy => skip_suf hy) h3
  have s := s3.trans (s2.trans s1)
  dsimp only at h
  split at h
  · obtain ⟨y, h4, h⟩ := Option.bind_eq_some_iff.1 h
    cases h
    exact (enumLoop_suf _ _ _ _ h4).trans s
  · cases h; exact s

private theorem fnHead_suf {r : Rd} {x : Str × Rd} (h : fnHead r = some x) : x.2.rest <:+ r.rest := by
  rw [fnHead] at h
  split at h
  · cases h; exact List.suffix_refl _
  · obtain ⟨r1, h1, h⟩ := Option.bind_eq_some_iff.1 h
    have s1 := next_suf h1
    have key : ∀ (J : Rd → Option (Str × Rd)), (if identStart r1.tok = true then r1.next >>= fun r =>
        (if r.tok = b "::" then r.next >>= J else some r >>= J) else some r1 >>= J) = some x →
        ∃ r2, r2.rest <:+ r1.rest ∧ J r2 = some x := by
      intro J h
      split at h
      · obtain ⟨r3, h3, h⟩ := Option.bind_eq_some_iff.1 h
        obtain ⟨r4, h4, h⟩ := jp h
        exact ⟨r4, (opt_suf (fun y hy => next_suf hy) h4).trans (next_suf h3), h⟩
      · exact ⟨r1, List.suffix_refl _, h⟩
    obtain ⟨r2, s2, h⟩ := key _ h
    have s := s2.trans s1
    dsimp only at h
    split at h
    · obtain ⟨r3, h3, h⟩ := Option.bind_eq_some_iff.1 h
      obtain ⟨r4, h4, h⟩ := Option.bind_eq_some_iff.1 h
      obtain ⟨r5, h5, h⟩ := Option.bind_eq_some_iff.1 h
      obtain ⟨r6, h6, h⟩ := Option.bind_eq_some_iff.1 h
      cases h
      exact (gobble_suf h6).trans ((skip_suf h5).trans ((gobble_suf h4).trans ((next_suf h3).trans s)))
    · split at h
      · obtain ⟨y, hy, rfl⟩ := Option.map_eq_some_iff.1 h
        exact (gobble_suf hy).trans s
      · cases h; exact s

private theorem function_suf {o : Opts} {s : St} {r : Rd} {x : St × Rd} (h : function o s r = some x) : x.2.rest <:+ r.rest := by
  rw [function] at h
  obtain ⟨y, h1, h⟩ := Option.bind_eq_some_iff.1 h
  obtain ⟨z, h2, h⟩ := Option.bind_eq_some_iff.1 h
  cases h
  exact (skip_suf h2).trans (fnHead_suf h1)

private theorem dims_suf : ∀ (n : Nat) (k : List (List Str)) (r : Rd) (x : List (List Str) × Rd),
    dims n k r = some x → x.2.rest <:+ r.rest := by
  intro n
  induction n with
  | zero => intro k r x h; simp [dims] at h
  | succ n ih =>
    intro k r x h
    rw [dims] at h
    split at h
    · obtain ⟨r1, h1, h⟩ := Option.bind_eq_some_iff.1 h
      obtain ⟨r2, h2, h⟩ := Option.bind_eq_some_iff.1 h
      obtain ⟨r3, h3, h⟩ := Option.bind_eq_some_iff.1 h
      exact (ih _ _ _ h).trans ((next_suf h3).trans ((skip_suf h2).trans (next_suf h1)))
    · cases h; exact List.suffix_refl _

private theorem of_go {s s' : St} {x : Option Rd} {r' : Rd} (h : Turn.of s x = .go s' r') : x = some r' := by
  cases x <;> simp [Turn.of] at h; rw [h.2]

private theorem tail2_suf {s s' : St} {r r' : Rd} (h : tail2 s r = .go s' r') : r'.rest <:+ r.rest := by
  rw [tail2] at h
  split at h
  · simp at h
  · rename_i s1 r1 h1
    have e1 : r1.rest <:+ r.rest := by
      split at h1
      · obtain ⟨y, hy, e⟩ := Option.map_eq_some_iff.1 h1
        cases e
        exact dims_suf _ _ _ _ hy
      · cases h1; exact List.suffix_refl _
    split at h
    · simp at h
    · rename_i r2 h2
      have e2 := opt_suf (fun y hy => gobble_suf hy) h2
      exact (opt_suf (fun y hy => gobble_suf hy) (of_go h)).trans (e2.trans e1)

private theorem tail1_suf {o : Opts} {s s' : St} {r r' : Rd} (h : tail1 o s r = .go s' r') : r'.rest <:+ r.rest := by
  rw [tail1] at h
  dsimp only at h
  split at h
  · simp at h
  rename_i s1 r1 h1
  have e1 : r1.rest <:+ r.rest := by
    split at h1
    · split at h1
      · simp at h1
      · rename_i r2 h2
        have e2 := opt_suf (fun y hy => gobble_suf hy) h2
        obtain ⟨y, hy, e⟩ := Option.map_eq_some_iff.1 h1
        cases e
        exact (skip_suf hy).trans e2
    · cases h1; exact List.suffix_refl _
  split at h
  · simp at h
  rename_i s2 r2 h2
  have e2 : r2.rest <:+ r1.rest := by
    split at h2
    · obtain ⟨x1, g1, h2⟩ := Option.bind_eq_some_iff.1 h2
      obtain ⟨x2, g2, h2⟩ := jp h2
      obtain ⟨x3, g3, h2⟩ := Option.bind_eq_some_iff.1 h2
      obtain ⟨x4, g4, h2⟩ := jp h2
      obtain ⟨x5, g5, h2⟩ := Option.bind_eq_some_iff.1 h2
      cases h2
      have e4 : x4.rest <:+ x3.rest := by
        split at g4
        · exact next_suf g4
        · exact gobble_suf g4
      exact (skip_suf g5).trans (e4.trans ((skip_suf g3).trans ((opt_suf (fun y hy => next_suf hy) g2).trans (next_suf g1))))
    · cases h2; exact List.suffix_refl _
  split at h
  · simp at h
  rename_i r3 h3
  have e3 : r3.rest <:+ r2.rest := by
    refine opt_suf (fun y hy => ?_) h3
    obtain ⟨x1, g1, g2⟩ := Option.bind_eq_some_iff.1 hy
    exact (gobble_suf g2).trans (next_suf g1)
  split at h
  · simp at h
  rename_i r4 h4
  have e := (opt_suf (fun y hy => skip_suf hy) h4).trans (e3.trans (e2.trans e1))
  split at h
  · split at h
    · simp at h
    · rename_i s5 r5 h5
      exact (tail2_suf h).trans ((function_suf h5).trans e)
  · exact (tail2_suf h).trans e

private theorem turn1_suf {o : Opts} {s s' : St} {r r' : Rd} (h : turn1 o s r = .go s' r') : r'.rest <:+ r.rest := by
  rw [turn1] at h
  split at h
  · split at h
    · simp at h
    · rename_i r1 h1
      simp at h
      rw [← h.2]; exact skip_suf h1
  · split at h
    · simp at h
    dsimp only at h
    split at h
    · simp at h
    rename_i s1 r1 h1
    have e1 : r1.rest <:+ r.rest := by
      split at h1
      · split at h1
        · simp at h1
        · rename_i r2 h2
          split at h1
          · obtain ⟨y, hy, e⟩ := Option.map_eq_some_iff.1 h1
            cases e
            exact (enumAction_suf hy).trans (next_suf h2)
          · obtain ⟨y, hy, e⟩ := Option.map_eq_some_iff.1 h1
            cases e
            exact (gobble_suf hy).trans (next_suf h2)
      · cases h1; exact List.suffix_refl _
    split at h
    · split at h
      · simp at h
      · rename_i r2 h2
        simp at h
        obtain ⟨x1, g1, g2⟩ := Option.bind_eq_some_iff.1 h2
        rw [← h.2]
        exact (skip_suf g2).trans ((gobble_suf g1).trans e1)
    · exact (tail1_suf h).trans e1

private theorem sgobbleLoop_suf (left right : Str) : ∀ (l : List Str) (x a : Str) (cnt : Int) (t : Str) (r' : Scan.Reader),
    Scan.gobbleLoop left right x a cnt l = .done t r' → r'.rest <:+ l := by
  intro l
  induction l with
  | nil => intro x a cnt t r' h; simp [Scan.gobbleLoop] at h
  | cons u l ih =>
    intro x a cnt t r' h
    rw [Scan.gobbleLoop] at h
    dsimp only at h
    generalize (if u = right then (if u = left then cnt + 1 else cnt) - 1 else if u = left then cnt + 1 else cnt) = n at h
    split at h
    · cases h; exact List.suffix_cons _ _
    · split at h
      · split at h
        · cases h; exact List.suffix_cons _ _
        · exact (ih _ _ _ _ _ h).trans (List.suffix_cons _ _)
      · exact (ih _ _ _ _ _ h).trans (List.suffix_cons _ _)

private theorem skipDefault_suf : ∀ (n : Nat) (i j : Scan.Reader) (t : Str), Scan.skipDefault n i = .done t j → j.rest <:+ i.rest := by
  intro n
  induction n with
  | zero => intro i j t h; simp [Scan.skipDefault] at h
  | succ n ih =>
    intro i j t h
    rw [Scan.skipDefault] at h
    dsimp only at h
    split at h
    · cases h; exact List.suffix_refl _
    · split at h
      · simp at h
      · rename_i t1 i1 h1
        have e1 : i1.rest <:+ i.rest := by
          split at h1
          · rw [Scan.gobble] at h1
            split at h1
            · cases h1; exact List.suffix_refl _
            · exact sgobbleLoop_suf _ _ _ _ _ _ _ _ h1
          · cases h1; exact List.suffix_refl _
        split at h
        · simp at h
        · rename_i u l hl
          have := ih _ _ _ h
          exact this.trans ((show l <:+ i1.rest by rw [hl]; exact List.suffix_cons _ _).trans e1)

private theorem templateLoop_suf : ∀ (n : Nat) (i : Scan.Reader) (cnt : Nat) (a t : Str) (j : Scan.Reader),
    Scan.templateLoop n i cnt a = .done t j → j.rest <:+ i.rest := by
  intro n
  induction n with
  | zero => intro i cnt a t j h; simp [Scan.templateLoop] at h
  | succ n ih =>
    intro i cnt a t j h
    rw [Scan.templateLoop] at h
    dsimp only at h
    split at h
    · simp at h
    · rename_i t1 i1 h1
      have e1 : i1.rest <:+ i.rest := by
        split at h1
        · exact skipDefault_suf _ _ _ _ h1
        · cases h1; exact List.suffix_refl _
      split at h
      · simp at h
      · rename_i u l hl
        have e2 : l <:+ i1.rest := by rw [hl]; exact List.suffix_cons _ _
        split at h
        · exact (ih _ _ _ _ _ h).trans (e2.trans e1)
        · cases h; exact e2.trans e1

private theorem template_suf {r : Rd} {x : Str × Rd} (h : template r = some x) : x.2.rest <:+ r.rest := by
  rw [template] at h
  obtain ⟨r1, h1, h⟩ := Option.bind_eq_some_iff.1 h
  rw [templateArgs] at h
  split at h
  · simp at h
  · rename_i t i hi
    cases h
    exact (templateLoop_suf _ _ _ _ _ _ hi).trans (next_suf h1)

private theorem turn_suf {o : Opts} {s s' : St} {r r' : Rd} (h : Decl.turn o s r = .go s' r') : r'.rest <:+ r.rest := by
  rw [Decl.turn] at h
  dsimp only at h
  split at h
  · exact gobble_suf (of_go h)
  · split at h
    · simp at h
    · split at h
      · split at h
        · simp at h
        · rename_i t r1 h1
          exact (turn1_suf h).trans (template_suf h1)
      · exact turn1_suf h

/-! ### Turns of the loop -/

private inductive ReachQ (o : Opts) : St → Rd → St → Rd → Prop
  | refl (s : St) (r : Rd) : ReachQ o s r s r
  | step {s : St} {bf la tk t : Str} {rest : List Str} {s' : St} {r' : Rd} {s'' : St} {r'' : Rd} : t ≠ b "}" →
      turn o s ⟨la, tk, t, rest⟩ = .go s' r' → r'.rest.length ≤ rest.length → ReachQ o s' r' s'' r'' →
      ReachQ o s ⟨bf, la, tk, t :: rest⟩ s'' r''

private theorem ReachQ.trans {o : Opts} {s r s' r' s'' r''} (h1 : ReachQ o s r s' r') (h2 : ReachQ o s' r' s'' r'') :
    ReachQ o s r s'' r'' := by
  induction h1 with
  | refl _ _ => exact h2
  | step a c d _ ih => exact .step a c d (ih h2)

private theorem ReachQ.loop {o : Opts} {s r s' r'} (h : ReachQ o s r s' r') :
    ∀ n, r.rest.length < n → ∃ m, r'.rest.length < m ∧ loop o n s r = loop o m s' r' := by
  induction h with
  | refl _ _ => exact fun n h => ⟨n, h, rfl⟩
  | step a c d _ ih =>
    intro n hn
    simp only [List.length_cons] at hn
    obtain ⟨n, rfl⟩ : ∃ m, n = m + 1 := ⟨n - 1, by omega⟩
    obtain ⟨m, hm, e⟩ := ih n (by omega)
    refine ⟨m, hm, ?_⟩
    rw [Qt.loop]
    simp only [Rd.next, a, if_false, c]
    exact e

private theorem turn_plain (o : Opts) (s : St) (r : Rd) (h : r.tok ∉ words) : turn o s r = Decl.turn o s r := by
  simp only [words, List.mem_cons, List.not_mem_nil, or_false, not_or] at h
  obtain ⟨h1, h2, h3, h4, h5, h6⟩ := h
  simp [turn, h1, h2, h3, h4, h5, h6]

private theorem reach_suf {o : Opts} {s r s' r'} (h : Reach o s r s' r') : r'.rest <:+ r.rest := by
  induction h with
  | refl _ _ => exact List.suffix_refl _
  | step a c d _ ih => exact ih.trans ((turn_suf c).trans (List.suffix_cons _ _))

private theorem lift {o : Opts} {s r s' r'} (h : Reach o s r s' r') :
    ∀ a, r.rest = a ++ r'.rest → (∀ t ∈ a, t ∉ words) → ReachQ o s r s' r' := by
  induction h with
  | refl _ _ => exact fun _ _ _ => .refl _ _
  | @step s bf la tk t rest s1 r1 s2 r2 a c d h ih =>
    intro l e hl
    have s1 := reach_suf h
    have s2 : r1.rest <:+ rest := turn_suf c
    cases l with
    | nil =>
      have := congrArg List.length e
      have l1 := s1.length_le
      have l2 := s2.length_le
      simp only [List.length_cons, List.nil_append] at this
      omega
    | cons u l =>
      simp only [List.cons_append, List.cons.injEq] at e
      obtain ⟨rfl, e⟩ := e
      obtain ⟨p, hp⟩ := s1
      obtain ⟨q, hq⟩ := s2
      have e2 : l = q ++ p := by
        rw [← hq, ← hp, ← List.append_assoc] at e
        exact (List.append_cancel_right e).symm
      refine .step a ?_ d (ih p hp.symm fun t ht => hl t (by simp [e2, ht]))
      rw [turn_plain _ _ _ (hl _ (by simp)), c]

private theorem one {o : Opts} {s : St} {bf la tk t : Str} {rest : List Str} {s' r'} (ht : t ≠ b "}")
    (h : turn o s ⟨la, tk, t, rest⟩ = .go s' r') (hl : r'.rest.length ≤ rest.length) :
    ReachQ o s ⟨bf, la, tk, t :: rest⟩ s' r' := .step ht h hl (.refl _ _)

private theorem gob1 (la tk kw : Str) (k : List Str) (h : kw ≠ b ":") :
    gobble ⟨la, tk, kw, b ":" :: k⟩ [] (b ":") = some ⟨tk, kw, b ":", k⟩ := by
  simp [gobble, gobbleLoop, h]

private theorem gob2 (la tk kw : Str) (k : List Str) (h : kw ≠ b ":") :
    gobble ⟨la, tk, kw, b "slots" :: b ":" :: k⟩ [] (b ":") = some ⟨kw, b "slots", b ":", k⟩ := by
  have h1 : b "slots" ≠ b ":" := by decide
  have h2 : b "slots" ≠ [] := by decide
  have h3 : ([] : Str) ≠ b "<" := by decide
  simp [gobble, gobbleLoop, h, h1, h2, h3]

private theorem label_reach (o : Opts) (s : St) (bf la tk kw : Str) (sl : Bool) (k : List Str) (hok : (Elem.label kw sl).Ok) :
    ∃ bf' la', ReachQ o s ⟨bf, la, tk, (Elem.label kw sl).toks ++ k⟩
      { s with priv := decide (kw ≠ b "public"), hidden := o.respect && decide (kw ≠ b "public") } ⟨bf', la', b ":", k⟩ := by
  have hk : kw ≠ b ":" ∧ kw ≠ b "}" ∧ kw ∉ words := by rcases hok with rfl | rfl | rfl <;> decide
  have hor : kw = b "private" ∨ kw = b "protected" ∨ kw = b "public" := hok
  cases sl with
  | false =>
    refine ⟨tk, kw, one hk.2.1 ?_ (by simp)⟩
    · rw [turn_plain _ _ _ hk.2.2, Decl.turn, if_pos hor]
      exact congrArg (Turn.of _) (gob1 la tk kw k hk.1)
  | true =>
    refine ⟨kw, b "slots", one hk.2.1 ?_ (by simp; omega)⟩
    · rw [turn_plain _ _ _ hk.2.2, Decl.turn, if_pos hor]
      exact congrArg (Turn.of _) (gob2 la tk kw k hk.1)

private theorem sect_reach (o : Opts) (s : St) (bf la tk : Str) (e : Elem) (k : List Str) (p : Bool)
    (he : e = .signals ∧ p = true ∨ e = .slots ∧ p = false) :
    ∃ bf' la', ReachQ o s ⟨bf, la, tk, e.toks ++ k⟩ { s with priv := p, hidden := p } ⟨bf', la', b ":", k⟩ := by
  rcases he with ⟨rfl, rfl⟩ | ⟨rfl, rfl⟩
  · refine ⟨tk, b "signals", one (by decide) ?_ (by simp)⟩
    · rw [turn, if_neg (show b "signals" ≠ b "Q_OBJECT" by decide),
        if_neg (show ¬ (b "signals" = b "Q_PROPERTY" ∨ b "signals" = b "Q_ENUMS" ∨ b "signals" = b "Q_CLASSINFO") by decide), if_pos (.inl rfl)]
      exact congrArg (Turn.of _) (gob1 la tk _ k (by decide))
  · refine ⟨tk, b "slots", one (by decide) ?_ (by simp)⟩
    · rw [turn, if_neg (show b "slots" ≠ b "Q_OBJECT" by decide),
        if_neg (show ¬ (b "slots" = b "Q_PROPERTY" ∨ b "slots" = b "Q_ENUMS" ∨ b "slots" = b "Q_CLASSINFO") by decide), if_pos (.inr rfl)]
      exact congrArg (Turn.of _) (gob1 la tk _ k (by decide))

private theorem info_reach (o : Opts) (s : St) (bf la tk w : Str) (a k : List Str) (hok : (Elem.info w a).Ok) :
    ∃ bf' la', ReachQ o s ⟨bf, la, tk, (Elem.info w a).toks ++ k⟩ s ⟨bf', la', b ")", k⟩ := by
  have hw : w ≠ b "Q_OBJECT" ∧ w ≠ b "}" := by rcases hok.1 with rfl | rfl | rfl <;> decide
  obtain ⟨x, y, h, _⟩ := gobble_bal (by decide) (by decide) hok.2 tk w (b "(") k (by decide)
  refine ⟨x, y, ?_⟩
  have : (Elem.info w a).toks ++ k = w :: b "(" :: (a ++ b ")" :: k) := by simp [Elem.toks]
  rw [this]
  refine one hw.2 ?_ (by simp; omega)
  rw [turn, if_neg hw.1, if_pos hok.1]
  exact congrArg (Turn.of s) h

private theorem object_reach (o : Opts) (s : St) (bf la tk : Str) (k : List Str) :
    ReachQ o s ⟨bf, la, tk, b "Q_OBJECT" :: k⟩ s ⟨la, tk, b "Q_OBJECT", k⟩ :=
  one (by decide) (by rw [turn, if_pos rfl]) (Nat.le_refl _)

private def NoSemi : List Elem → Prop
  | .item .semi :: _ => False
  | _ => True

private theorem good_tail {e : Elem} {es : List Elem} (h : Good (e :: es)) : Good es := by
  cases e with
  | object =>
    cases es with
    | nil => trivial
    | cons x xs =>
      cases x with
      | item i => cases i <;> first | exact h | exact h.elim
      | _ => exact h
  | _ => exact h

private theorem good_object {es : List Elem} (h : Good (.object :: es)) : NoSemi es := by
  cases es with
  | nil => trivial
  | cons e es =>
    cases e with
    | item i => cases i <;> first | exact h.elim | trivial
    | _ => trivial

private theorem expected_one (o : Opts) (h : Bool) {i : Item} (hi : ∀ kw, i ≠ .label kw) :
    expected o h [i] = if h = true then [] else i.members o := by
  cases i <;> simp [expected] ; exact absurd rfl (hi _)

private theorem enumsOf_one (p : Bool) {i : Item} (hi : ∀ kw, i ≠ .label kw) :
    enumsOf p [i] = if p = true then [] else i.enums := by
  cases i <;> simp [enumsOf] ; exact absurd rfl (hi _)

private theorem privAfter_one (p : Bool) {i : Item} (hi : ∀ kw, i ≠ .label kw) : privAfter p [i] = p := by
  cases i <;> simp [privAfter] ; exact absurd rfl (hi _)


private theorem actions_one (o : Opts) (h : Bool) {i : Item} (hi : ∀ kw, i ≠ .label kw) :
    actions o h [i] = if h = true then [] else i.acts o := by
  cases i <;> simp [actions] ; exact absurd rfl (hi _)

namespace C132

/-- The actions to be recorded, with the specifiers. -/
def recorded (o : Opts) : Bool → List Elem → List Act
  | _, [] => []
  | h, .item i :: es => (if h = true then [] else i.acts o) ++ recorded o h es
  | _, .label kw _ :: es => recorded o (o.respect && decide (kw ≠ b "public")) es
  | h, .object :: es => recorded o h es
  | h, .info _ _ :: es => recorded o h es
  | _, .signals :: es => recorded o true es
  | _, .slots :: es => recorded o false es

end C132

private theorem elems_state (o : Opts) (es : List Elem) (hok : ∀ e ∈ es, e.Ok) (hg : Good es) (s : St) (bf la tk : Str) (k : List Str)
    (htk : tk ≠ b "~" ∧ tk ≠ b "&") (hsemi : identStart tk = false ∨ NoSemi es) (hs : s.tmpl = false) :
    ∃ s' bf' la' t', ReachQ o s ⟨bf, la, tk, es.flatMap Elem.toks ++ k⟩ s' ⟨bf', la', t', k⟩ ∧
      s'.acts.map (fun a => (a.name, a.kind)) = s.acts.map (fun a => (a.name, a.kind)) ++ described o s.hidden es ∧
      s'.count = s.count ++ (es.flatMap Elem.items).flatMap Item.fns ∧
      s'.usings = s.usings ++ (es.flatMap Elem.items).flatMap Item.usings ∧
      s'.enums = s.enums ++ ((enumerations s.priv es).map fun e => (e.1, e.2.1, some e.2.2)) ∧
      (s.static = false → Tidy s.const (es.flatMap Elem.items) → s'.acts = s.acts ++ recorded o s.hidden es) := by
  induction es generalizing s bf la tk with
  | nil => exact ⟨s, bf, la, tk, .refl _ _, by simp [described], by simp, by simp, by simp [enumerations], 
      fun _ _ => by simp [recorded]⟩
  | cons e es ih =>
    have hok' : ∀ e ∈ es, e.Ok := fun x hx => hok x (by simp [hx])
    have he : e.Ok := hok e (by simp)
    have hg' := good_tail hg
    rw [List.flatMap_cons, List.append_assoc]
    cases e with
    | item i =>
      obtain ⟨he1, he2, he3⟩ := he
      have hb : [i] = [] ∨ [i].head? = some .semi → identStart tk = false := by
        rintro (h | h)
        · simp at h
        · simp only [List.head?_cons, Option.some.injEq] at h
          subst h
          exact hsemi.resolve_right (fun h => h)
      obtain ⟨s1, x, y, z, r, hz, f0, f1, f2, f3, f4, f5, _, f7, f8⟩ := items_state_hidden o [i] (by simpa using he1) s bf la tk
        (es.flatMap Elem.toks ++ k) htk hb hs
      simp only [List.flatMap_cons, List.flatMap_nil, List.append_nil] at r f2 f3
      rw [privAfter_one _ he2] at f5
      rw [enumsOf_one _ he2] at f7
      rw [expected_one _ _ he2] at f1
      have hh : s1.hidden = s.hidden := f0 fun kw hk => he2 kw (List.mem_singleton.1 hk).symm
      obtain ⟨s2, x2, y2, z2, r2, g1, g2, g3, g4, g6⟩ := ih hok' hg' s1 x y z hz.2 (.inl hz.1) f4
      refine ⟨s2, x2, y2, z2, (lift r i.toks rfl he3).trans r2, ?_, ?_, ?_, ?_, ?_⟩
      · rw [g1, f1, hh]; simp [described]
      · rw [g2, f2]; simp [Elem.items]
      · rw [g3, f3]; simp [Elem.items]
      · rw [g4, f7, f5]; simp [enumerations]
      · intro h1 h2
        obtain ⟨a1, a2, a3⟩ := f8 (es.flatMap Elem.items) h1 (by simpa [Elem.items] using h2)
        rw [g6 a2 a3, a1, actions_one _ _ he2, hh]; simp [recorded]
    | label kw sl =>
      obtain ⟨x, y, r⟩ := label_reach o s bf la tk kw sl (es.flatMap Elem.toks ++ k) he
      obtain ⟨s2, x2, y2, z2, r2, g⟩ := ih hok' hg' { s with priv := decide (kw ≠ b "public"), hidden := o.respect && decide (kw ≠ b "public") } x y (b ":") (by decide) (.inl (by decide)) hs
      exact ⟨s2, x2, y2, z2, r.trans r2, g⟩
    | object =>
      have r := object_reach o s bf la tk (es.flatMap Elem.toks ++ k)
      obtain ⟨s2, x2, y2, z2, r2, g⟩ := ih hok' hg' s la tk (b "Q_OBJECT") (by decide) (.inr (good_object hg)) hs
      exact ⟨s2, x2, y2, z2, r.trans r2, g⟩
    | info w a =>
      obtain ⟨x, y, r⟩ := info_reach o s bf la tk w a (es.flatMap Elem.toks ++ k) he
      obtain ⟨s2, x2, y2, z2, r2, g⟩ := ih hok' hg' s x y (b ")") (by decide) (.inl (by decide)) hs
      exact ⟨s2, x2, y2, z2, r.trans r2, g⟩
    | signals =>
      obtain ⟨x, y, r⟩ := sect_reach o s bf la tk .signals (es.flatMap Elem.toks ++ k) true (.inl ⟨rfl, rfl⟩)
      obtain ⟨s2, x2, y2, z2, r2, g⟩ := ih hok' hg' { s with priv := true, hidden := true } x y (b ":") (by decide) (.inl (by decide)) hs
      exact ⟨s2, x2, y2, z2, r.trans r2, by simpa [described, recorded, enumerations, Elem.items] using g⟩
    | slots =>
      obtain ⟨x, y, r⟩ := sect_reach o s bf la tk .slots (es.flatMap Elem.toks ++ k) false (.inr ⟨rfl, rfl⟩)
      obtain ⟨s2, x2, y2, z2, r2, g⟩ := ih hok' hg' { s with priv := false, hidden := false } x y (b ":") (by decide) (.inl (by decide)) hs
      exact ⟨s2, x2, y2, z2, r.trans r2, by simpa [described, recorded, enumerations, Elem.items] using g⟩


/-! ### The property -/

private theorem body_of (o : Opts) (isClass : Bool) (s0 : St) (hs0 : s0 = { hidden := o.respect && isClass, priv := isClass })
    (toks : List Str) (k : List Str) (s' : St) (x y z : Str)
    (r : ReachQ o s0 ⟨[], [], b "{", toks ++ b "}" :: k⟩ s' ⟨x, y, z, b "}" :: k⟩) :
    body o isClass (toks ++ b "}" :: k) = some s' := by
  obtain ⟨m, hm, h⟩ := r.loop ((toks ++ b "}" :: k).length + 1) (by simp)
  obtain ⟨m, rfl⟩ : ∃ n, m = n + 1 := ⟨m - 1, by simp at hm; omega⟩
  rw [body, ← hs0, h, loop]
  simp [Rd.next]

/-- **C132** (for the items of `C66.Item`): with -qt, the members described are those of the class its Qt macros stand for,
in order and with the right kind, except those declared as signals and those of sections to be left out. -/
theorem C132_members_partial (o : Opts) (isClass : Bool) (es : List Elem) (k : List Str) (hok : ∀ e ∈ es, e.Ok) (hg : Good es) :
    ∃ acts, members o isClass (es.flatMap Elem.toks ++ b "}" :: k) = some acts ∧
      acts.map (fun a => (a.name, a.kind)) = kept o (es.flatMap Elem.items) (described o (o.respect && isClass) es) := by
  obtain ⟨s0, hs0⟩ : ∃ s0 : St, s0 = { hidden := o.respect && isClass, priv := isClass } := ⟨_, rfl⟩
  obtain ⟨s', x, y, z, r, f1, f2, f3, _⟩ := elems_state o es hok hg s0 [] [] (b "{") (b "}" :: k) (by decide) (.inl (by decide))
    (by simp [hs0])
  refine ⟨keep o s', by rw [members, body_of o isClass s0 hs0 _ _ _ _ _ _ r]; rfl, ?_⟩
  exact keep_kept o _ s' _ (by simpa [hs0] using f1) (by simpa [hs0] using f2) (by simpa [hs0] using f3)

/-- **C132** with the specifiers: exactly which members are recorded as static, and as static constants. -/
theorem C132_actions_partial (o : Opts) (isClass : Bool) (es : List Elem) (k : List Str) (hok : ∀ e ∈ es, e.Ok) (hg : Good es)
    (ht : Tidy false (es.flatMap Elem.items)) :
    members o isClass (es.flatMap Elem.toks ++ b "}" :: k) =
      some (keptActs o (es.flatMap Elem.items) (recorded o (o.respect && isClass) es)) := by
  obtain ⟨s0, hs0⟩ : ∃ s0 : St, s0 = { hidden := o.respect && isClass, priv := isClass } := ⟨_, rfl⟩
  obtain ⟨s', x, y, z, r, _, f2, f3, _, f5⟩ := elems_state o es hok hg s0 [] [] (b "{") (b "}" :: k) (by decide) (.inl (by decide))
    (by simp [hs0])
  rw [members, body_of o isClass s0 hs0 _ _ _ _ _ _ r]
  exact congrArg some (keep_acts o _ s' _ (by simpa [hs0] using f5 (by simp [hs0]) (by simpa [hs0] using ht))
    (by simpa [hs0] using f2) (by simpa [hs0] using f3))

/-- **C132** for enumerations: those of public sections are registered, and so those among slots, but none among signals. -/
theorem C132_enums_partial (o : Opts) (isClass : Bool) (es : List Elem) (k : List Str) (hok : ∀ e ∈ es, e.Ok) (hg : Good es) :
    enums o isClass (es.flatMap Elem.toks ++ b "}" :: k) =
      some ((enumerations isClass es).map fun e => (e.1, e.2.1, some e.2.2)) := by
  obtain ⟨s0, hs0⟩ : ∃ s0 : St, s0 = { hidden := o.respect && isClass, priv := isClass } := ⟨_, rfl⟩
  obtain ⟨s', x, y, z, r, _, _, _, f4, _⟩ := elems_state o es hok hg s0 [] [] (b "{") (b "}" :: k) (by decide) (.inl (by decide))
    (by simp [hs0])
  rw [enums, body_of o isClass s0 hs0 _ _ _ _ _ _ r]
  exact congrArg some (by simpa [hs0] using f4)

private theorem described_cpp (o : Opts) (ho : o.respect = true) (es : List Elem) (hok : ∀ e ∈ es, e.Ok) (h : Bool) :
    described o h es = expected o h (es.flatMap Elem.cpp) := by
  induction es generalizing h with
  | nil => rfl
  | cons e es ih =>
    have ih := ih (fun x hx => hok x (by simp [hx]))
    have he := hok e (by simp)
    rw [List.flatMap_cons]
    cases e with
    | item i =>
      have h2 := he.2.1
      rw [described, ih]
      cases i <;> first | rfl | exact absurd rfl (h2 _)
    | label kw s => simp only [described, ih, Elem.cpp]; rfl
    | object => exact ih h
    | info w a => exact ih h
    | signals =>
      rw [described, ih]
      show _ = expected o (o.respect && decide (b "protected" ≠ b "public")) _
      rw [ho, show decide (b "protected" ≠ b "public") = true by decide]; rfl
    | slots =>
      rw [described, ih]
      show _ = expected o (o.respect && decide (b "public" ≠ b "public")) _
      rw [ho, show decide (b "public" ≠ b "public") = false by decide]; rfl

private theorem cpp_ok (es : List Elem) (hok : ∀ e ∈ es, e.Ok) : ∀ i ∈ es.flatMap Elem.cpp, i.Ok := by
  intro i hi
  obtain ⟨e, he, h⟩ := List.mem_flatMap.1 hi
  have := hok e he
  cases e <;> simp only [Elem.cpp, List.mem_singleton, List.not_mem_nil] at h
  · subst h; exact this.1
  · subst h; exact this
  · subst h; exact .inr (.inl rfl)
  · subst h; exact .inr (.inr rfl)

private theorem cpp_fns (es : List Elem) : (es.flatMap Elem.cpp).flatMap Item.fns = (es.flatMap Elem.items).flatMap Item.fns ∧
    (es.flatMap Elem.cpp).flatMap Item.usings = (es.flatMap Elem.items).flatMap Item.usings := by
  induction es with
  | nil => exact ⟨rfl, rfl⟩
  | cons e es ih =>
    cases e <;> simp [Elem.cpp, Elem.items, Item.fns, Item.usings, ih.1, ih.2]

/-- **C132** with -respect_private: the same members are described as for the class written without Qt. -/
theorem C132_same_partial (o : Opts) (ho : o.respect = true) (isClass : Bool) (es : List Elem) (k : List Str)
    (hok : ∀ e ∈ es, e.Ok) (hg : Good es) :
    ∃ qt cpp, members o isClass (es.flatMap Elem.toks ++ b "}" :: k) = some qt ∧
      Decl.members o isClass ((es.flatMap Elem.cpp).flatMap Item.toks ++ b "}" :: k) = some cpp ∧
      qt.map (fun a => (a.name, a.kind)) = cpp.map (fun a => (a.name, a.kind)) := by
  obtain ⟨qt, h1, h2⟩ := C132_members_partial o isClass es k hok hg
  obtain ⟨cpp, h3, h4⟩ := C66_members_partial o isClass (es.flatMap Elem.cpp) k (cpp_ok es hok)
  refine ⟨qt, cpp, h1, h3, ?_⟩
  rw [h2, h4, described_cpp o ho es hok, kept, kept, (cpp_fns es).1, (cpp_fns es).2]

private theorem loop_plain (o : Opts) : ∀ (n : Nat) (s : St) (r : Rd), (∀ t ∈ r.rest, t ∉ words) → loop o n s r = Decl.loop o n s r := by
  intro n
  induction n with
  | zero => intro s r _; rfl
  | succ n ih =>
    intro s r h
    rw [loop, Decl.loop]
    cases e : r.next with
    | none => rfl
    | some r1 =>
      have h1 : r1.tok ∉ words := by
        refine h _ ?_
        cases r with | mk a c d l => cases l with
          | nil => simp [Rd.next] at e
          | cons t l => simp [Rd.next] at e; subst e; simp
      dsimp only
      rw [turn_plain o s r1 h1]
      split
      · rfl
      · cases e2 : Decl.turn o s r1 with
        | go s2 r2 => exact ih _ _ fun t ht => h t ((next_suf e).subset ((turn_suf e2).subset ht))
        | eof => rfl
        | other => rfl

/-- The option changes nothing for a class without the words of Qt, whatever else is in it. -/
theorem C132_plain (o : Opts) (isClass : Bool) (toks : List Str) (h : ∀ t ∈ toks, t ∉ words) :
    members o isClass toks = Decl.members o isClass toks := by
  rw [members, body, Decl.members, loop_plain o _ _ _ h]
  cases Decl.loop o (toks.length + 1) { hidden := o.respect && isClass, priv := isClass } ⟨[], [], b "{", toks⟩ <;> rfl

/-- `Q_OBJECT` with a semicolon is taken for the name of a data member. -/
theorem C132_fails_semicolon (o : Opts) (isClass : Bool) (hv : (o.respect && isClass) = false) (es : List Elem) (k : List Str)
    (hok : ∀ e ∈ es, e.Ok) (hg : Good es) :
    ∃ acts, members o isClass (b "Q_OBJECT" :: b ";" :: (es.flatMap Elem.toks ++ b "}" :: k)) = some acts ∧
      acts.map (fun a => (a.name, a.kind)) =
        kept o (es.flatMap Elem.items) ((b "Q_OBJECT", .data false) :: described o false es) := by
  obtain ⟨s0, hs0⟩ : ∃ s0 : St, s0 = { hidden := o.respect && isClass, priv := isClass } := ⟨_, rfl⟩
  have hh : s0.hidden = false := by rw [hs0]; exact hv
  obtain ⟨s1, hs1⟩ : ∃ s1 : St, s1 = s0.register (b "Q_OBJECT") (.data false) := ⟨_, rfl⟩
  have e1 : s1 = { s0 with acts := [⟨b "Q_OBJECT", .data false, false, false⟩] } := by
    rw [hs1, St.register, hh, hs0]; rfl
  have r1 := object_reach o s0 [] [] (b "{") (b ";" :: (es.flatMap Elem.toks ++ b "}" :: k))
  have r2 := lift (sep_reach o s0 [] (b "{") (b "Q_OBJECT") (b ";") (es.flatMap Elem.toks ++ b "}" :: k) (.inl rfl)) [b ";"] rfl
    (by decide)
  obtain ⟨s', x, y, z, r, f1, f2, f3, _⟩ := elems_state o es hok hg s1 (b "{") (b "Q_OBJECT") (b ";") (b "}" :: k)
    (by decide) (.inl (by decide)) (by rw [e1, hs0])
  have r2' : ReachQ o s0 ⟨[], b "{", b "Q_OBJECT", b ";" :: (es.flatMap Elem.toks ++ b "}" :: k)⟩ s1
      ⟨b "{", b "Q_OBJECT", b ";", es.flatMap Elem.toks ++ b "}" :: k⟩ := by
    rw [hs1]; exact r2
  have hb := body_of o isClass s0 hs0 (b "Q_OBJECT" :: b ";" :: es.flatMap Elem.toks) k s' x y z (r1.trans (r2'.trans r))
  refine ⟨keep o s', by rw [members]; exact congrArg (Option.map (keep o)) hb, ?_⟩
  exact keep_kept o _ s' _ (by rw [f1, e1]; simp [hh]) (by rw [f2, e1, hs0]; rfl) (by rw [f3, e1, hs0]; rfl)

/-- Without -respect_private protected members are described, but signals are not. -/
theorem C132_fails_signals (o : Opts) (ho : o.respect = false) (is : List Item) (k : List Str) (hok : ∀ i ∈ is, (Elem.item i).Ok) :
    members o false (b "signals" :: b ":" :: (is.flatMap Item.toks ++ b "}" :: k)) = some [] ∧
    ∃ acts, Decl.members o false (b "protected" :: b ":" :: (is.flatMap Item.toks ++ b "}" :: k)) = some acts ∧
      acts.map (fun a => (a.name, a.kind)) = kept o is (is.flatMap (Item.members o)) := by
  have hl : ∀ is : List Item, Good (is.map Elem.item) := by
    intro is
    induction is with
    | nil => trivial
    | cons i is ih => exact ih
  have e1 : (is.map Elem.item).flatMap Elem.toks = is.flatMap Item.toks := by rw [List.flatMap_map]; rfl
  have hd : ∀ is : List Item, described o true (is.map Elem.item) = [] := by
    intro is
    induction is with
    | nil => rfl
    | cons i is ih => simp [described, ih]
  constructor
  · obtain ⟨acts, h1, h2⟩ := C132_members_partial o false (.signals :: is.map Elem.item) k
      (by intro e he; rcases List.mem_cons.1 he with rfl | he
          · trivial
          · obtain ⟨i, hi, rfl⟩ := List.mem_map.1 he; exact hok i hi) (hl is)
    have : acts = [] := by
      rw [described, hd, kept] at h2
      cases acts with
      | nil => rfl
      | cons a l => split at h2 <;> simp at h2
    rw [this] at h1
    rw [List.flatMap_cons, e1] at h1
    exact h1
  · obtain ⟨acts, h1, h2⟩ := C66_members_partial o false (.label (b "protected") :: is) k
      (by intro i hi; rcases List.mem_cons.1 hi with rfl | hi
          · exact .inr (.inl rfl)
          · exact (hok i hi).1)
    refine ⟨acts, h1, h2.trans ?_⟩
    have he : ∀ is : List Item, (∀ i ∈ is, ∀ kw, i ≠ .label kw) → expected o false is = is.flatMap (Item.members o) := by
      intro is hi
      induction is with
      | nil => rfl
      | cons i is ih =>
        have := ih (fun x hx => hi x (by simp [hx]))
        have h3 := hi i (by simp)
        cases i <;> first | exact absurd rfl (h3 _) | simp [expected, this]
    show kept o (.label (b "protected") :: is) (expected o (o.respect && decide (b "protected" ≠ b "public")) is) = _
    rw [ho, Bool.false_and, he is fun i hi => (hok i hi).2.1]
    rfl

/-- A macro not known, like `Q_DISABLE_COPY(A)`, is taken for a member function, and the declaration after it is lost. -/
theorem C132_fails_macro (o : Opts) (w : Str) (a post : List Str) (hw : (Elem.item (.func [] false w (some a) post none)).Ok)
    (hc : w ≠ o.cls) (hd : b "delete" ∉ post) (hx : w ≠ b "CLASSDESC_ACCESS" ∧ w ≠ b "CLASSDESC_ACCESS_TEMPLATE") (k : List Str) :
    ∃ acts, members o false (w :: b "(" :: (a ++ b ")" :: (post ++ b ";" :: b "}" :: k))) = some acts ∧
      acts.map (fun a => (a.name, a.kind)) = [(w, .func)] := by
  obtain ⟨acts, h1, h2⟩ := C132_members_partial o false [.item (.func [] false w (some a) post none)] k (by simpa using hw) trivial
  refine ⟨acts, ?_, h2.trans ?_⟩
  · rw [← h1]; simp [Elem.toks, Item.toks, argToks, bodyToks]
  · simp [described, Elem.items, Item.members, hc, hd, hx.1, hx.2, kept, Item.fns, Item.usings]


/-! ### A class -/

private theorem word {t : Str} (h : ∃ c r, t = c :: r ∧ c ∉ 0 :: b "{;,:=([<}") (hk : t ∉ special) : Quiet t := ⟨hk, .inr h⟩

/-- `Q_OBJECT Q_PROPERTY(int n) public: int n; signals: void changed(); enum E {a}; public slots: void set(); enum F {c};
private slots: void reset(); signals: Q_CLASSINFO() public: Q_OBJECT int m;` -/
private def demo : List Elem :=
  [.object, .info (b "Q_PROPERTY") [b "int", b "n"], .label (b "public") false, .item (.data [⟨[b "int"], b "n", .plain⟩]),
   .signals, .item (.func [b "void"] false (b "changed") none [] none), .item (.enum false (b "E") none [⟨b "a", none⟩] false none),
   .label (b "public") true, .item (.func [b "void"] false (b "set") none [] none),
   .item (.enum false (b "F") none [⟨b "c", none⟩] false none),
   .label (b "private") true, .item (.func [b "void"] false (b "reset") none [] none),
   .signals, .info (b "Q_CLASSINFO") [], .label (b "public") false, .object, .item (.data [⟨[b "int"], b "m", .plain⟩])]

private theorem demo_int (n : Str) (hn : Name n) (hw : n ∉ words) : (Elem.item (.data [⟨[b "int"], n, .plain⟩])).Ok := by
  refine ⟨⟨by simp, ?_⟩, nofun, ?_⟩
  · intro d hd
    simp only [List.mem_singleton] at hd
    subst hd
    exact ⟨.quiet (word ⟨_, _, rfl, by decide +kernel⟩ (by decide +kernel)) .nil, hn, trivial⟩
  · intro t ht
    simp only [Item.toks, declToks, Declr.toks, Shape.toks, List.cons_append, List.nil_append, List.mem_cons, List.not_mem_nil,
      or_false] at ht
    rcases ht with rfl | rfl | rfl
    · decide +kernel
    · exact hw
    · decide +kernel

private theorem demo_fun (n : Str) (hn : Name n) (hw : n ∉ words) : (Elem.item (.func [b "void"] false n none [] none)).Ok := by
  refine ⟨⟨.quiet (word ⟨_, _, rfl, by decide +kernel⟩ (by decide +kernel)) .nil, hn, nofun, by simp, nofun⟩, nofun, ?_⟩
  intro t ht
  simp only [Item.toks, argToks, bodyToks, List.cons_append, List.nil_append, List.mem_cons, List.not_mem_nil, or_false,
    Bool.false_eq_true, if_false] at ht
  rcases ht with rfl | rfl | rfl | rfl
  · decide +kernel
  · exact hw
  · decide +kernel
  · decide +kernel

private theorem demo_enum (n a : Str) (hn : Name n) (hw : n ∉ words ∧ a ∉ words) (ha : (Enumerator.mk a none).Ok ∧ [] ∉ (Enumerator.mk a none).toks) :
    (Elem.item (.enum false n none [⟨a, none⟩] false none)).Ok := by
  refine ⟨⟨hn, nofun, by simp, by simpa using ha, nofun⟩, nofun, ?_⟩
  intro t ht
  simp [Item.toks, underToks, commas, Enumerator.toks] at ht
  rcases ht with rfl | rfl | rfl | rfl | rfl | rfl
  · decide +kernel
  · exact hw.1
  · decide +kernel
  · exact hw.2
  · decide +kernel
  · decide +kernel

private theorem demo_ok : ∀ e ∈ demo, e.Ok := by
  have nm : ∀ t : Str, (∃ c r, t = c :: r ∧ c ∉ 0 :: b "{;,:=([<}") → t ∉ special → identStart t = true → Name t :=
    fun t h1 h2 h3 => ⟨word h1 h2, h3⟩
  intro e he
  simp only [demo, List.mem_cons, List.not_mem_nil, or_false] at he
  rcases he with rfl | rfl | rfl | rfl | rfl | rfl | rfl | rfl | rfl | rfl | rfl | rfl | rfl | rfl | rfl | rfl | rfl
  · trivial
  · exact ⟨.inl rfl, .tok (by decide +kernel) (by decide +kernel) (by decide +kernel) (.tok (by decide +kernel) (by decide +kernel) (by decide +kernel) .nil)⟩
  · exact .inr (.inr rfl)
  · exact demo_int _ (nm _ ⟨_, _, rfl, by decide +kernel⟩ (by decide +kernel) (by decide +kernel)) (by decide +kernel)
  · trivial
  · exact demo_fun _ (nm _ ⟨_, _, rfl, by decide +kernel⟩ (by decide +kernel) (by decide +kernel)) (by decide +kernel)
  · exact demo_enum _ _ (nm _ ⟨_, _, rfl, by decide +kernel⟩ (by decide +kernel) (by decide +kernel)) (by decide +kernel)
      ⟨⟨by decide +kernel, nofun⟩, by decide +kernel⟩
  · exact .inr (.inr rfl)
  · exact demo_fun _ (nm _ ⟨_, _, rfl, by decide +kernel⟩ (by decide +kernel) (by decide +kernel)) (by decide +kernel)
  · exact demo_enum _ _ (nm _ ⟨_, _, rfl, by decide +kernel⟩ (by decide +kernel) (by decide +kernel)) (by decide +kernel)
      ⟨⟨by decide +kernel, nofun⟩, by decide +kernel⟩
  · exact .inl rfl
  · exact demo_fun _ (nm _ ⟨_, _, rfl, by decide +kernel⟩ (by decide +kernel) (by decide +kernel)) (by decide +kernel)
  · trivial
  · exact ⟨.inr (.inr rfl), .nil⟩
  · exact .inr (.inr rfl)
  · trivial
  · exact demo_int _ (nm _ ⟨_, _, rfl, by decide +kernel⟩ (by decide +kernel) (by decide +kernel)) (by decide +kernel)

private theorem demo_good : Good demo := trivial

/-- The private slot is described without -respect_private only, the signal never. -/
example : ∃ acts, members ⟨false, false, b "A"⟩ true (demo.flatMap Elem.toks ++ b "}" :: [b ";"]) = some acts ∧
    acts.map (fun a => (a.name, a.kind)) = [(b "n", .data false), (b "set", .func), (b "reset", .func), (b "m", .data false)] := by
  obtain ⟨acts, h1, h2⟩ := C132_members_partial ⟨false, false, b "A"⟩ true demo [b ";"] demo_ok demo_good
  exact ⟨acts, h1, h2.trans (by decide +kernel)⟩

example : members ⟨true, false, b "A"⟩ true (demo.flatMap Elem.toks ++ b "}" :: [b ";"]) =
    some [⟨b "n", .data false, false, false⟩, ⟨b "set", .func, false, false⟩, ⟨b "m", .data false, false, false⟩] := by
  rw [C132_actions_partial ⟨true, false, b "A"⟩ true demo [b ";"] demo_ok demo_good (by simp [demo, Elem.items, Tidy]; decide +kernel)]
  decide +kernel

example : enums ⟨false, false, b "A"⟩ true (demo.flatMap Elem.toks ++ b "}" :: [b ";"]) = some [(false, b "F", some [b "c"])] := by
  rw [C132_enums_partial ⟨false, false, b "A"⟩ true demo [b ";"] demo_ok demo_good]
  decide +kernel

example : ∃ qt cpp, members ⟨true, false, b "A"⟩ true (demo.flatMap Elem.toks ++ b "}" :: []) = some qt ∧
    Decl.members ⟨true, false, b "A"⟩ true ((demo.flatMap Elem.cpp).flatMap Item.toks ++ b "}" :: []) = some cpp ∧
    qt.map (fun a => (a.name, a.kind)) = cpp.map (fun a => (a.name, a.kind)) :=
  C132_same_partial ⟨true, false, b "A"⟩ rfl true demo [] demo_ok demo_good

example : ∃ acts, members ⟨false, false, b "A"⟩ false (b "Q_OBJECT" :: b ";" :: (demo.flatMap Elem.toks ++ b "}" :: [])) = some acts ∧
    acts.map (fun a => (a.name, a.kind)) =
      [(b "Q_OBJECT", .data false), (b "n", .data false), (b "set", .func), (b "reset", .func), (b "m", .data false)] := by
  obtain ⟨acts, h1, h2⟩ := C132_fails_semicolon ⟨false, false, b "A"⟩ false rfl demo [] demo_ok demo_good
  exact ⟨acts, h1, h2.trans (by decide +kernel)⟩

/-- `Q_DISABLE_COPY(A) int x; }` -/
example : (members ⟨false, false, b "A"⟩ false [b "Q_DISABLE_COPY", b "(", b "A", b ")", b "int", b "x", b ";", b "}"]).map
    (·.map fun a => (a.name, a.kind)) = some [(b "Q_DISABLE_COPY", .func)] := by decide +kernel

/-- `signals: void f(); }` without and with -qt. -/
example : (Decl.members ⟨false, false, b "A"⟩ false [b "signals", b ":", b "void", b "f", b "()", b ";", b "}"]).map
    (·.map fun a => (a.name, a.kind)) = some [(b "signals", .data false)] ∧
    (members ⟨false, false, b "A"⟩ false [b "signals", b ":", b "void", b "f", b "()", b ";", b "}"]) = some [] := by decide +kernel

end Verif.Qt
