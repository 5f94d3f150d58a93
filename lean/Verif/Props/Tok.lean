import Verif.Tok
/-
C63: the scanner of the code generator delivers the tokens of the text.
-/
namespace Verif.Tok

namespace C63

/-- Letters, digits and underscore. -/
def Word (c : UInt8) : Prop := 48 ≤ c ∧ c ≤ 57 ∨ 65 ≤ c ∧ c ≤ 90 ∨ 97 ≤ c ∧ c ≤ 122 ∨ c = 95

/-- Operators and punctuation the scanner knows. -/
def ops : List Str :=
  ["\\", "!", "@", "$", "~", "(", ")", "{", "}", "[", "]", ":", ";", ",", ".", "?", "%", "*", "|", "-", "+",
   "=", "<", ">", "^", "&", "/", "%=", "*=", "|=", "-=", "+=", "==", "<=", ">=", "^=", "&=", "/=", "<<", ">>",
   "||", "&&", "++", "--", "::", "<<=", ">>=", "->", "->*", "..", "...", "[]", "()"].map b

/-- The inside of a string or character constant delimited by `q`. -/
inductive Body (q : UInt8) : Str → Prop
  | nil : Body q []
  | char {c s} : c ≠ q → c ≠ 92 → Body q s → Body q (c :: s)
  | esc {c s} : Body q s → Body q (92 :: c :: s)

/-- A token, and the characters that may follow it directly: longest match. -/
inductive Lexeme : Str → UInt8 → Prop
  | word {w c} : w ≠ [] → (∀ x ∈ w, Word x) → ¬ Word c → Lexeme w c
  | op {o c} : o ∈ ops → (∀ x ∈ b "/*" :: b "//" :: ops, ¬ o ++ [c] <+: x) → Lexeme o c
  | quoted {q s c} : q = 34 ∨ q = 39 → Body q s → Lexeme (q :: (s ++ [q])) c

/-- A preprocessor line after the `#`: comments may extend over several lines; a slash is followed by another character of the line. -/
inductive Line : Str → Prop
  | nil : Line []
  | char {c t} : c ≠ 10 → c ≠ 47 → Line t → Line (c :: t)
  | slash {c t} : c ≠ 10 → c ≠ 42 → Line t → Line (47 :: c :: t)
  | comment {u t} : ¬ b "*/" <:+: u → Line t → Line (b "/*" ++ (u ++ (b "*/" ++ t)))

/-- What may stand between tokens: white space, comments, preprocessor lines. -/
inductive Sep : Str → Prop
  | nil : Sep []
  | space {c s} : c = 32 ∨ 9 ≤ c ∧ c ≤ 13 → Sep s → Sep (c :: s)
  | block {t s} : ¬ b "*/" <:+: t → Sep s → Sep (b "/*" ++ (t ++ (b "*/" ++ s)))
  | line {t s} : 10 ∉ t → Sep s → Sep (b "//" ++ (t ++ 10 :: s))
  | control {t s} : Line t → ¬ b "pragma" <+: (t.takeWhile (· != 47)).filter (· != 13) → Sep s → Sep (35 :: (t ++ 10 :: s))

/-- A text and its tokens. -/
inductive Doc : List Str → Str → Prop
  | nil {s} : Sep s → Doc [] s
  | cons {s l c r ts} : Sep s → Lexeme l c → Doc ts (c :: r) → Doc (l :: ts) (s ++ (l ++ c :: r))
  -- a line beginning with #pragma is a token, without carriage returns
  | pragma {s t r ts} : Sep s → 10 ∉ t → 47 ∉ t → b "pragma" <+: t.filter (· != 13) → Doc ts (10 :: r) →
      Doc ((35 :: t.filter (· != 13)) :: ts) (s ++ (35 :: (t ++ 10 :: r)))

/-- No continuation lines and nothing that looks like an attribute. -/
structure Plain (s : Str) : Prop where
  cont : ¬ [92, 10] <:+: s
  attr : ¬ [91, 91] <:+: s
  last : s.getLast? ≠ some 92 ∧ s.getLast? ≠ some 91

end C63
open C63

private theorem all256 (p : UInt8 → Bool) (h : ∀ n : Fin 256, p (UInt8.ofNat n.val) = true) (c : UInt8) : p c = true := by
  have := h ⟨c.toNat, c.toNat_lt⟩
  simpa using this

private theorem isWord_iff (c : UInt8) : isWord c = true ↔ Word c := by
  simp [isWord, Word, or_assoc]

private theorem word_facts (c : UInt8) (h : isWord c = true) :
    isSpace c = false ∧ c ≠ 35 ∧ c ≠ 34 ∧ c ≠ 39 ∧ isOp c = false := by
  have := all256 (fun c => !isWord c || (!isSpace c && c != 35 && c != 34 && c != 39 && !isOp c)) (by decide +kernel) c
  simp [h] at this
  simp only [and_assoc] at this
  exact this

theorem feed_plain : ∀ (n : Nat) (s : Str), s.length ≤ n → Plain s →
    feed n s = (s.map fun c => (c, [c]), .throw) := by
  intro n
  induction n with
  | zero => intro s hs _; cases s with
    | nil => rfl
    | cons => simp at hs
  | succ n ih =>
    intro s hs hp
    cases s with
    | nil => rfl
    | cons c r =>
      have hr : Plain r ∨ r = [] := by
        cases r with
        | nil => right; rfl
        | cons x r =>
          left
          refine ⟨fun h => hp.cont (h.trans (List.suffix_cons _ _).isInfix),
            fun h => hp.attr (h.trans (List.suffix_cons _ _).isInfix), ?_⟩
          have := hp.last
          simpa [List.getLast?_cons_cons] using this
      have hf : feed n r = (r.map fun c => (c, [c]), .throw) := by
        rcases hr with hr | rfl
        · exact ih r (by simpa using hs) hr
        · cases n <;> rfl
      simp only [feed]
      by_cases h1 : c = 92
      · subst h1
        cases r with
        | nil => exact absurd rfl hp.last.1
        | cons x r =>
          have : x ≠ 10 := by
            rintro rfl
            exact hp.cont ⟨[], r, rfl⟩
          simp only [if_true, this, if_false, hf]; rfl
      · by_cases h2 : c = 91
        · subst h2
          cases r with
          | nil => exact absurd rfl hp.last.2
          | cons x r =>
            have : x ≠ 91 := by
              rintro rfl
              exact hp.attr ⟨[], r, rfl⟩
            simp only [this, if_false, hf, if_true]; rfl
        · simp only [h1, h2, if_false, hf]; rfl

private theorem block_eq {l : Str} : ∀ (t : Str) (lc : UInt8), ¬ [42, 47] <:+: lc :: t →
    block lc (t ++ 42 :: 47 :: l) = some (47 :: l) := by
  intro t
  induction t with
  | nil =>
    intro lc h
    simp [block]
  | cons c t ih =>
    intro lc h
    have h1 : ¬ (lc = 42 ∧ c = 47) := by
      rintro ⟨rfl, rfl⟩; exact h ⟨[], t, rfl⟩
    have h2 : ¬ [42, 47] <:+: c :: t := fun q => h (q.trans (List.suffix_cons _ _).isInfix)
    rw [List.cons_append, block, if_neg h1, ih c h2]

private theorem comment_eq {t l : Str} (x : UInt8) (h : ¬ [42, 47] <:+: t) :
    comment (x :: (t ++ 42 :: 47 :: l)) = some l := by
  cases t with
  | nil => simp [comment, block]
  | cons c t =>
    have h1 : ¬ (c = 42 ∧ c = 47) := by rintro ⟨rfl, h⟩; exact absurd h (by decide)
    simp only [comment, List.cons_append, block, if_neg h1, block_eq t c h, Option.map_some, List.drop_one, List.tail_cons]

/-- What is kept of a preprocessor line: up to the first slash everything but carriage returns. -/
private theorem control_eq (e : End) {l t : Str} (h : Line t) : ∀ (n : Nat) (acc : Str), t.length + 1 ≤ n →
    ∃ k, control e n acc (t ++ 10 :: l) = some (acc ++ (t.takeWhile (· != 47)).filter (· != 13) ++ k, 10 :: l) ∧
      (k = [] ∨ k.head? = some 47) := by
  induction h with
  | nil =>
    intro n acc hn
    cases n with
    | zero => simp at hn
    | succ n => exact ⟨[], by simp [control], .inl rfl⟩
  | @char c t c1 c2 _ ih =>
    intro n acc hn
    cases n with
    | zero => simp at hn
    | succ n =>
      obtain ⟨k, i, hk⟩ := ih n (if c ≠ 13 then acc ++ [c] else acc) (by simpa using hn)
      refine ⟨k, ?_, hk⟩
      simp only [control, List.cons_append, c1, c2, if_false]
      rw [i]
      by_cases c3 : c = 13 <;> simp [c2, c3]
  | @slash c t c1 c2 _ ih =>
    intro n acc hn
    cases n with
    | zero => simp at hn
    | succ n =>
      obtain ⟨k, i, hk⟩ := ih n (acc ++ [47]) (by simp at hn ⊢; omega)
      refine ⟨47 :: ((t.takeWhile (· != 47)).filter (· != 13) ++ k), ?_, .inr rfl⟩
      simp only [control, List.cons_append, c2, if_false, if_true, show ¬ ((47 : UInt8) = 10) by decide,
        show ((47 : UInt8) ≠ 13) by decide, ne_eq, not_false_eq_true]
      rw [i]
      simp
  | @comment u t hu _ ih =>
    intro n acc hn
    cases n with
    | zero => simp at hn
    | succ n =>
      have e0 : b "/*" ++ (u ++ (b "*/" ++ t)) = 47 :: 42 :: (u ++ 42 :: 47 :: t) := by
        simp [show b "/*" = [47, 42] from rfl, show b "*/" = [42, 47] from rfl]
      rw [e0] at hn ⊢
      obtain ⟨k, i, hk⟩ := ih n (acc ++ [47]) (by simp at hn ⊢; omega)
      refine ⟨47 :: ((t.takeWhile (· != 47)).filter (· != 13) ++ k), ?_, .inr rfl⟩
      have e1 : 47 :: 42 :: (u ++ 42 :: 47 :: t) ++ 10 :: l = 47 :: 42 :: (u ++ 42 :: 47 :: (t ++ 10 :: l)) := by simp
      rw [e1]
      simp only [control, if_true, if_false, show ¬ ((47 : UInt8) = 10) by decide,
        show ((47 : UInt8) ≠ 13) by decide, ne_eq, not_false_eq_true]
      rw [comment_eq 42 hu]
      simp only
      rw [i]
      simp

private theorem prefix_slash {p x k : Str} (hp : 47 ∉ p) (hk : k = [] ∨ k.head? = some 47) (h : p <+: x ++ k) : p <+: x := by
  induction x generalizing p with
  | nil =>
    cases p with
    | nil => exact List.nil_prefix
    | cons c p =>
      rcases hk with rfl | hk
      · simpa using h
      · cases k with
        | nil => simp at hk
        | cons d k =>
          simp only [List.head?_cons, Option.some.injEq] at hk
          subst hk
          simp only [List.nil_append, List.cons_prefix_cons] at h
          exact absurd (by simp [h.1]) hp
  | cons c x ih =>
    cases p with
    | nil => exact List.nil_prefix
    | cons d p =>
      simp only [List.cons_append, List.cons_prefix_cons] at h ⊢
      exact ⟨h.1, ih (fun q => hp (.tail _ q)) h.2⟩

private theorem sep_skip (e : End) {x : Next} {s : Str} (h : Sep s) : ∀ {l : Str},
    (∀ n, l.length < n → nexttok e n l = x) → ∀ n, (s ++ l).length < n → nexttok e n (s ++ l) = x := by
  induction h with
  | nil => intro l hl; simpa using hl
  | @space c s hc _ ih =>
    intro l hl n hn
    have hs : isSpace c = true := by
      rcases hc with rfl | ⟨h1, h2⟩
      · rfl
      · simp [isSpace, h1, h2]
    have := ih hl n (by simp at hn ⊢; omega)
    cases n with
    | zero => simp at hn
    | succ n =>
      rw [← this]
      simp only [nexttok, List.cons_append, List.dropWhile_cons, hs, if_true]
  | @block t s ht _ ih =>
    intro l hl n hn
    cases n with
    | zero => simp at hn
    | succ n =>
      have e0 : b "/*" ++ (t ++ (b "*/" ++ s)) ++ l = 47 :: 42 :: (t ++ 42 :: 47 :: (s ++ l)) := by
        simp [show b "/*" = [47, 42] from rfl, show b "*/" = [42, 47] from rfl]
      rw [e0] at hn ⊢
      have h0 : isSpace 47 = false := rfl
      have h1 : isOp 47 = true := rfl
      have := ih hl n (by simp at hn ⊢; omega)
      simp only [nexttok, List.dropWhile_cons, h0, h1, Bool.false_eq_true, if_false, List.head?_cons, and_self, if_true,
        show ¬ ((47 : UInt8) = 35) by decide, show ¬ ((47 : UInt8) = 34 ∨ (47 : UInt8) = 39) by decide]
      rw [comment_eq 42 ht]
      exact this
  | @line t s ht _ ih =>
    intro l hl n hn
    cases n with
    | zero => simp at hn
    | succ n =>
      have e0 : b "//" ++ (t ++ 10 :: s) ++ l = 47 :: 47 :: (t ++ 10 :: (s ++ l)) := by
        simp [show b "//" = [47, 47] from rfl]
      rw [e0] at hn ⊢
      have h0 : isSpace 47 = false := rfl
      have h1 : isOp 47 = true := rfl
      have hd : (47 :: (t ++ 10 :: (s ++ l))).dropWhile (· != 10) = 10 :: (s ++ l) := by
        rw [List.dropWhile_cons, if_pos (by decide)]
        clear hn e0 ih hl
        induction t with
        | nil => rfl
        | cons c t ih =>
          have c1 : (c != 10) = true := by simp; exact fun h => ht (by simp [h])
          rw [List.cons_append, List.dropWhile_cons, if_pos c1]
          exact ih fun h => ht (by simp [h])
      have step : nexttok e (n + 1) (47 :: 47 :: (t ++ 10 :: (s ++ l))) =
          nexttok e n ((47 :: (t ++ 10 :: (s ++ l))).dropWhile (· != 10)) := by
        generalize t ++ 10 :: (s ++ l) = y
        rw [nexttok]
        simp only [List.dropWhile_cons, h0, h1, Bool.false_eq_true, if_false, List.head?_cons, if_true,
          show ¬ ((47 : UInt8) = 35) by decide, show ¬ ((47 : UInt8) = 34 ∨ (47 : UInt8) = 39) by decide, true_and,
          Option.some.injEq, show ¬ ((47 : UInt8) = 42) by decide]
      rw [step, hd]
      have := ih hl n (by simp at hn ⊢; omega)
      rw [← this]
      cases n with
      | zero => simp at hn
      | succ n => simp only [nexttok, List.dropWhile_cons, show isSpace 10 = true from rfl, if_true]
  | @control t s h1 h3 _ ih =>
    intro l hl n hn
    cases n with
    | zero => simp at hn
    | succ n =>
      have e0 : 35 :: (t ++ 10 :: s) ++ l = 35 :: (t ++ 10 :: (s ++ l)) := by simp
      rw [e0] at hn ⊢
      have h0 : isSpace 35 = false := rfl
      obtain ⟨k, hc, hk⟩ := control_eq e (l := s ++ l) (.char (by decide) (by decide) h1 : Line (35 :: t))
        ((t ++ 10 :: (s ++ l)).length + 2) [] (by simp)
      have e1 : ([] : Str) ++ ((35 :: t).takeWhile (· != 47)).filter (· != 13) ++ k =
          35 :: ((t.takeWhile (· != 47)).filter (· != 13) ++ k) := by simp
      rw [e1] at hc
      have hp : ¬ b "#pragma" <+: (35 : UInt8) :: ((t.takeWhile (· != 47)).filter (· != 13) ++ k) := by
        rw [show b "#pragma" = 35 :: b "pragma" from rfl, List.cons_prefix_cons]
        exact fun h => h3 (prefix_slash (by decide) hk h.2)
      simp only [nexttok, List.dropWhile_cons, h0, Bool.false_eq_true, if_false, if_true]
      rw [List.cons_append] at hc
      rw [hc]
      simp only [hp, if_false]
      have := ih hl n (by simp at hn ⊢; omega)
      rw [← this]
      cases n with
      | zero => simp at hn
      | succ n => simp only [nexttok, List.dropWhile_cons, show isSpace 10 = true from rfl, if_true]

private theorem quoted_step (e : End) (q c x : UInt8) (esc : Bool) (acc r : Str)
    (h : x ≠ q ∨ (c == 92 && !esc) = true) :
    quoted e q esc acc (c :: x :: r) = quoted e q (c == 92 && !esc) (acc ++ [c]) (x :: r) := by
  rw [quoted.eq_def]
  simp only [h, if_true]

private theorem quoted_eq (e : End) {q d : UInt8} {r : Str} (hq : q ≠ 92) {s : Str} (h : Body q s) :
    ∀ esc acc (c : UInt8), (c == 92 && !esc) = false →
      quoted e q esc acc (c :: (s ++ q :: d :: r)) = .tok (acc ++ c :: s ++ [q]) (d :: r) := by
  induction h with
  | nil =>
    intro esc acc c hc
    simp [quoted, hc, give]
  | @char x s h1 h2 _ ih =>
    intro esc acc c hc
    have hx : (x == 92 && !false) = false := by simp [h2]
    have := ih false (acc ++ [c]) x hx
    rw [List.cons_append, quoted_step e q c x esc acc _ (.inl h1), hc, this]
    simp
  | @esc x s _ ih =>
    intro esc acc c hc
    have hx : (x == 92 && !true) = false := by simp
    have := ih true (acc ++ [c] ++ [92]) x hx
    have h9 : (92 : UInt8) ≠ q := fun h => hq h.symm
    rw [List.cons_append, List.cons_append, quoted_step e q c 92 esc acc _ (.inl h9), hc,
      quoted_step e q 92 x false _ _ (.inr rfl)]
    rw [show ((92 : UInt8) == 92 && !false) = true from rfl, this]
    simp

private theorem next_op (e : End) (n : Nat) {lc : UInt8} {r : Str} (h1 : isOp lc = true) (h2 : lc ≠ 35)
    (h3 : ¬ (lc = 47 ∧ r.head? = some 42)) (h4 : ¬ (lc = 47 ∧ r.head? = some 47)) :
    nexttok e (n + 1) (lc :: r) = oper e lc r := by
  have := all256 (fun c => !isOp c || (!isSpace c && c != 34 && c != 39)) (by decide +kernel) lc
  simp [h1] at this
  simp only [and_assoc] at this
  rw [nexttok]
  simp only [List.dropWhile_cons, this.1, Bool.false_eq_true, if_false, h2, this.2.1, this.2.2, or_self, h1, if_true, h3, h4]

/-- The scanner's decisions at an operator, by the number of its characters. -/
private def stays (lc c : UInt8) : Bool :=
  !(c == 61 && !noAssign lc) && !(c == lc && (b "<>|&+-:").contains lc) && !(lc == 45 && c == 62) &&
  !(lc == 46 && c == 46) && !(lc == 91 && c == 93) && !(lc == 40 && c == 41)

private theorem oper_one (e : End) (lc c : UInt8) (r : Str) (h : stays lc c = true) :
    oper e lc (c :: r) = .tok [lc] (c :: r) := by
  simp only [stays, Bool.and_eq_true, Bool.not_eq_true', Bool.and_eq_false_iff, beq_eq_false_iff_ne, ne_eq,
    Bool.not_eq_false'] at h
  obtain ⟨⟨⟨⟨⟨h1, h2⟩, h3⟩, h4⟩, h5⟩, h6⟩ := h
  simp only [oper]
  rw [if_neg (by rintro ⟨a, b⟩; rcases h1 with h | h; exact h a; simp [b] at h)]
  split
  · rename_i hm
    have hne : ¬ c = lc := by rcases h2 with h | h; exact h; rw [hm] at h; cases h
    rw [if_neg hne, if_neg (by rintro ⟨a, b⟩; rcases h3 with h | h; exact h a; exact h b)]
  · split
    · rename_i hm
      rw [if_neg (by rintro a; rcases h4 with h | h; exact h hm; exact h a)]
    · split
      · rename_i hm
        rw [if_neg (by rintro a; rcases h5 with h | h; exact h hm; exact h a)]
      · split
        · rename_i hm
          rw [if_neg (by rintro a; rcases h6 with h | h; exact h hm; exact h a)]
        · rfl

private def ops1 : List UInt8 := b "\\!@$~(){}[]:;,.?%*|-+=<>^&/"

/-- Operators of one character. -/
private theorem one_table : ∀ lc ∈ ops1, ∀ k : Fin 256,
    stays lc (UInt8.ofNat k.val) = true ∧ ¬ (lc = 47 ∧ (k.val = 42 ∨ k.val = 47)) ∨
      (b "/*" :: b "//" :: ops).any (fun x => List.isPrefixOf [lc, UInt8.ofNat k.val] x) = true := by
  decide +kernel

private def ops2 : List Str := [[37, 61], [42, 61], [124, 61], [45, 61], [43, 61],
    [61, 61], [60, 61], [62, 61], [94, 61], [38, 61], [47, 61], [60, 60], [62, 62], [124, 124], [38, 38], [43, 43],
    [45, 45], [58, 58], [60, 60, 61], [62, 62, 61], [45, 62], [45, 62, 42], [46, 46], [46, 46, 46], [91, 93], [40, 41]]

private theorem ops_split : ops = ops1.map (fun c => [c]) ++ ops2 := by decide +kernel

private theorem op_next (e : End) (n : Nat) {o : Str} {c : UInt8} (r : Str) (ho : o ∈ ops)
    (hc : ∀ x ∈ b "/*" :: b "//" :: ops, ¬ o ++ [c] <+: x) : nexttok e (n + 1) (o ++ c :: r) = .tok o (c :: r) := by
  rw [ops_split] at ho
  rcases List.mem_append.1 ho with h | h
  · obtain ⟨lc, hl, rfl⟩ := List.mem_map.1 h
    have t := one_table lc hl ⟨c.toNat, c.toNat_lt⟩
    simp only [UInt8.ofNat_toNat] at t
    have op : isOp lc = true ∧ lc ≠ 35 := by
      have : ∀ lc ∈ ops1, isOp lc = true ∧ lc ≠ 35 := by decide +kernel
      exact this lc hl
    rcases t with ⟨t1, t2⟩ | t
    · rw [List.singleton_append, next_op e n op.1 op.2 (by
        rintro ⟨a, h⟩; apply t2; refine ⟨a, .inl ?_⟩; simp at h; subst h; rfl) (by
        rintro ⟨a, h⟩; apply t2; refine ⟨a, .inr ?_⟩; simp at h; subst h; rfl), oper_one e lc c r t1]
    · obtain ⟨x, hx, hp⟩ := List.any_eq_true.1 t
      exact absurd (List.isPrefixOf_iff_prefix.1 hp) (hc x hx)
  · have cs : (b "<>|&+-:") = [60, 62, 124, 38, 43, 45, 58] := by decide +kernel
    have ex1 : o = [60, 60] → c ≠ 61 := by
      rintro rfl rfl; exact hc [60, 60, 61] (by decide +kernel) (List.prefix_refl _)
    have ex2 : o = [62, 62] → c ≠ 61 := by
      rintro rfl rfl; exact hc [62, 62, 61] (by decide +kernel) (List.prefix_refl _)
    have ex3 : o = [45, 62] → c ≠ 42 := by
      rintro rfl rfl; exact hc [45, 62, 42] (by decide +kernel) (List.prefix_refl _)
    have ex4 : o = [46, 46] → c ≠ 46 := by
      rintro rfl rfl; exact hc [46, 46, 46] (by decide +kernel) (List.prefix_refl _)
    have na : noAssign 37 = false ∧ noAssign 42 = false ∧ noAssign 124 = false ∧ noAssign 45 = false ∧ noAssign 43 = false ∧
        noAssign 61 = false ∧ noAssign 60 = false ∧ noAssign 62 = false ∧ noAssign 94 = false ∧ noAssign 38 = false ∧
        noAssign 47 = false := by decide +kernel
    obtain ⟨n1, n2, n3, n4, n5, n6, n7, n8, n9, n10, n11⟩ := na
    have step : ∃ lc t, o = lc :: t ∧ nexttok e (n + 1) (lc :: (t ++ c :: r)) = oper e lc (t ++ c :: r) := by
      have : ∀ o ∈ ops2, ∃ lc ∈ ops1, ∃ x ∈ ops1, ∃ t ∈ [[], [61], [42], [46]], o = lc :: x :: t ∧ (lc ≠ 47 ∨ x = 61) := by
        decide +kernel
      obtain ⟨lc, hl, x, _, t, _, rfl, hx⟩ := this o h
      have op : isOp lc = true ∧ lc ≠ 35 := by
        have : ∀ lc ∈ ops1, isOp lc = true ∧ lc ≠ 35 := by decide +kernel
        exact this lc hl
      refine ⟨lc, x :: t, rfl, next_op e n op.1 op.2 ?_ ?_⟩
      · rintro ⟨rfl, hh⟩
        rcases hx with hx | rfl
        · exact hx rfl
        · simp at hh
      · rintro ⟨rfl, hh⟩
        rcases hx with hx | rfl
        · exact hx rfl
        · simp at hh
    obtain ⟨lc, t, rfl, st⟩ := step
    rw [List.cons_append, st]
    simp only [ops2, List.mem_cons, List.not_mem_nil, or_false, List.cons.injEq] at h
    rcases h with ⟨rfl, rfl⟩ | ⟨rfl, rfl⟩ | ⟨rfl, rfl⟩ | ⟨rfl, rfl⟩ | ⟨rfl, rfl⟩ | ⟨rfl, rfl⟩ | ⟨rfl, rfl⟩ | ⟨rfl, rfl⟩ | ⟨rfl, rfl⟩ | ⟨rfl, rfl⟩ | ⟨rfl, rfl⟩ | ⟨rfl, rfl⟩ | ⟨rfl, rfl⟩ | ⟨rfl, rfl⟩ | ⟨rfl, rfl⟩ | ⟨rfl, rfl⟩ | ⟨rfl, rfl⟩ | ⟨rfl, rfl⟩ | ⟨rfl, rfl⟩ | ⟨rfl, rfl⟩ | ⟨rfl, rfl⟩ | ⟨rfl, rfl⟩ | ⟨rfl, rfl⟩ | ⟨rfl, rfl⟩ | ⟨rfl, rfl⟩ | ⟨rfl, rfl⟩ <;>
    simp [oper, give, cs, n1, n2, n3, n4, n5, n6, n7, n8, n9, n10, n11] <;> simp_all

private theorem word_next (e : End) (n : Nat) {w : Str} {c : UInt8} (r : Str) (hw : w ≠ []) (ha : ∀ x ∈ w, Word x)
    (hc : ¬ Word c) : nexttok e (n + 1) (w ++ c :: r) = .tok w (c :: r) := by
  have hc' : isWord c = false := by
    cases h : isWord c with
    | false => rfl
    | true => exact absurd ((isWord_iff c).1 h) hc
  cases w with
  | nil => exact absurd rfl hw
  | cons x w =>
    have hx : isWord x = true := (isWord_iff x).2 (ha x (by simp))
    obtain ⟨f1, f2, f3, f4, f5⟩ := word_facts x hx
    have t1 : ∀ w : Str, (∀ x ∈ w, Word x) → (w ++ c :: r).takeWhile isWord = w ∧ (w ++ c :: r).dropWhile isWord = c :: r := by
      intro w
      induction w with
      | nil => intro _; simp [hc']
      | cons y w ih =>
        intro h
        have hy := (isWord_iff y).2 (h y (by simp))
        obtain ⟨i1, i2⟩ := ih fun z hz => h z (by simp [hz])
        simp [hy, i1, i2]
    obtain ⟨i1, i2⟩ := t1 (x :: w) ha
    rw [List.cons_append] at i1 i2 ⊢
    rw [nexttok]
    simp only [List.dropWhile_cons, f1, Bool.false_eq_true, if_false, f2, f3, f4, or_self, f5, hx, if_true] at i2 ⊢
    rw [i1, i2]
    rfl

private theorem lexeme_next (e : End) (n : Nat) {l : Str} {c : UInt8} (r : Str) (h : Lexeme l c) :
    nexttok e (n + 1) (l ++ c :: r) = .tok l (c :: r) := by
  cases h with
  | word h1 h2 h3 => exact word_next e n r h1 h2 h3
  | op h1 h2 => exact op_next e n r h1 h2
  | @quoted q s c h1 h2 =>
    have f : isSpace q = false ∧ q ≠ 35 ∧ q ≠ 92 := by rcases h1 with rfl | rfl <;> decide
    rw [List.cons_append, nexttok]
    simp only [List.dropWhile_cons, f.1, Bool.false_eq_true, if_false, f.2.1, h1, if_true]
    rw [List.append_assoc, List.singleton_append, quoted_eq e f.2.2 h2 false [] q (by simp [f.2.2])]
    simp

/-- Nothing but separators. -/
theorem next_eof {s : Str} (hs : Sep s) : nexttok .throw (s.length + 1) s = .eof := by
  have := sep_skip .throw hs (l := []) (x := .eof) (by intro n hn; cases n <;> rfl) (s.length + 1) (by simp)
  rwa [List.append_nil] at this

/-- A token behind separators. -/
theorem next_cons {s l r : Str} {c : UInt8} (hs : Sep s) (hl : Lexeme l c) :
    nexttok .throw ((s ++ (l ++ c :: r)).length + 1) (s ++ (l ++ c :: r)) = .tok l (c :: r) :=
  sep_skip .throw hs (l := l ++ c :: r) (x := .tok l (c :: r))
    (by intro n hn; cases n with
        | zero => simp at hn
        | succ n => exact lexeme_next .throw n r hl) ((s ++ (l ++ c :: r)).length + 1) (by simp)

/-- A pragma behind separators. -/
theorem next_pragma {s t r : Str} (hs : Sep s) (h1 : 10 ∉ t) (h2 : 47 ∉ t) (h3 : b "pragma" <+: t.filter (· != 13)) :
    nexttok .throw ((s ++ (35 :: (t ++ 10 :: r))).length + 1) (s ++ (35 :: (t ++ 10 :: r))) = .tok (35 :: t.filter (· != 13)) (10 :: r) := by
  have hctl : ∀ (u : Str) (n : Nat) (acc : Str), 10 ∉ u → 47 ∉ u → u.length + 1 ≤ n →
      control .throw n acc (u ++ 10 :: r) = some (acc ++ u.filter (· != 13), 10 :: r) := by
    intro u
    induction u with
    | nil =>
      intro n acc _ _ hn
      cases n with
      | zero => simp at hn
      | succ n => simp [control]
    | cons c u ih =>
      intro n acc a d hn
      cases n with
      | zero => simp at hn
      | succ n =>
        have c1 : c ≠ 10 := fun h => a (by simp [h])
        have c2 : c ≠ 47 := fun h => d (by simp [h])
        simp only [control, List.cons_append, c1, c2, if_false]
        rw [ih n _ (fun h => a (.tail _ h)) (fun h => d (.tail _ h)) (by simpa using hn)]
        by_cases c3 : c = 13 <;> simp [c3]
  refine sep_skip .throw hs (l := 35 :: (t ++ 10 :: r)) (x := .tok (35 :: t.filter (· != 13)) (10 :: r)) ?_
    ((s ++ (35 :: (t ++ 10 :: r))).length + 1) (by simp)
  intro n hn
  cases n with
  | zero => simp at hn
  | succ n =>
    have hc := hctl (35 :: t) ((t ++ 10 :: r).length + 2) [] (by simp [h1]) (by simp [h2]) (by simp)
    have hp : b "#pragma" <+: (35 : UInt8) :: t.filter (· != 13) := by
      rw [show b "#pragma" = 35 :: b "pragma" from rfl, List.cons_prefix_cons]
      exact ⟨rfl, h3⟩
    rw [List.cons_append] at hc
    rw [nexttok]
    simp only [List.dropWhile_cons, show isSpace 35 = false from rfl, Bool.false_eq_true, if_false, if_true]
    rw [hc]
    simp [hp]

theorem lexeme_ne {l : Str} {c : UInt8} (hl : Lexeme l c) : l ≠ [] := by
  cases hl with
  | word h => exact h
  | op h => rintro rfl; exact absurd h (by decide +kernel)
  | quoted => simp

private theorem lex_doc {ts : List Str} {t : Str} (h : Doc ts t) : ∀ n, t.length < n → lexAll .throw n t = (ts, true) := by
  induction h with
  | @nil s hs =>
    intro n hn
    cases n with
    | zero => simp at hn
    | succ n => simp only [lexAll, next_eof hs]
  | @cons s l c r ts hs hl _ ih =>
    intro n hn
    have hl1 : 0 < l.length := List.length_pos_iff.2 (lexeme_ne hl)
    cases n with
    | zero => simp at hn
    | succ n =>
      simp only [lexAll, next_cons hs hl]
      rw [ih n (by simp at hn ⊢; omega)]
  | @pragma s t r ts hs h1 h2 h3 _ ih =>
    intro n hn
    cases n with
    | zero => simp at hn
    | succ n =>
      simp only [lexAll, next_pragma hs h1 h2 h3]
      rw [ih n (by simp at hn ⊢; omega)]

theorem chars_plain {s : Str} (h : Plain s) : chars s = (s, .throw) := by
  rw [chars, feed_plain _ s (Nat.le_refl _) h]
  simp [Function.comp_def]

/-- The tokens of a text are its words, operators and constants, in order; what stands between them makes
no difference. -/
theorem C63_tokens_partial {ts : List Str} {s : Str} (h : Doc ts s) (hp : Plain s) : tokens s = (ts, true) := by
  rw [tokens, chars_plain hp]
  exact lex_doc h _ (by simp)

private theorem attrEnd_len {lc : UInt8} {s r : Str} (h : attrEnd lc s = some r) : r.length < s.length := by
  induction s generalizing lc with
  | nil => simp [attrEnd] at h
  | cons x s ih =>
    simp only [attrEnd] at h
    split at h
    · simp at h; subst h; simp
    · have := ih h; simp; omega

private theorem feed_fuel : ∀ (n m : Nat) (s : Str), s.length ≤ n → s.length ≤ m → feed n s = feed m s := by
  intro n
  induction n with
  | zero =>
    intro m s hn _
    cases s with
    | nil => cases m <;> rfl
    | cons => simp at hn
  | succ n ih =>
    intro m s hn hm
    cases s with
    | nil => cases m <;> rfl
    | cons c r =>
      cases m with
      | zero => simp at hm
      | succ m =>
        simp only [List.length_cons, Nat.add_le_add_iff_right] at hn hm
        simp only [feed]
        have i1 := ih m r hn hm
        split
        · cases r with
          | nil => rfl
          | cons x r =>
            simp only [i1]
            split
            · cases r with
              | nil => rfl
              | cons y r => simp only [ih m r (by simp at hn; omega) (by simp at hm; omega)]
            · rfl
        · split
          · cases r with
            | nil => rfl
            | cons x r =>
              simp only [i1]
              split
              · cases ha : attrEnd 91 r with
                | none => rfl
                | some s' =>
                  have := attrEnd_len ha
                  simp only [ih m s' (by simp at hn; omega) (by simp at hm; omega)]
              · rfl
          · rw [i1]

private theorem feed_append : ∀ (a s : Str), Plain a → feed (a ++ s).length (a ++ s) =
    (a.map (fun c => (c, [c])) ++ (feed s.length s).1, (feed s.length s).2) := by
  intro a s
  induction a with
  | nil => intro _; simp
  | cons c r ih =>
    intro hp
    have hr : Plain r := by
      cases r with
      | nil => exact ⟨by simp, by simp, by simp⟩
      | cons x r =>
        refine ⟨fun h => hp.cont (h.trans (List.suffix_cons _ _).isInfix),
          fun h => hp.attr (h.trans (List.suffix_cons _ _).isInfix), ?_⟩
        have := hp.last
        simpa [List.getLast?_cons_cons] using this
    have hf := ih hr
    simp only [List.cons_append, List.length_cons, feed]
    by_cases h1 : c = 92
    · subst h1
      cases r with
      | nil => exact absurd rfl hp.last.1
      | cons x r =>
        have : x ≠ 10 := by
          rintro rfl
          exact hp.cont ⟨[], r, rfl⟩
        simp only [List.cons_append] at hf
        simp only [if_true, List.cons_append, this, if_false, hf]; rfl
    · by_cases h2 : c = 91
      · subst h2
        cases r with
        | nil => exact absurd rfl hp.last.2
        | cons x r =>
          have : x ≠ 91 := by
            rintro rfl
            exact hp.attr ⟨[], r, rfl⟩
          simp only [List.cons_append] at hf
          simp only [this, if_false, List.cons_append, hf, if_true]; rfl
      · simp only [h1, h2, if_false, hf]; rfl

private theorem attrEnd_eq {r : Str} : ∀ (t : Str) (lc : UInt8), ¬ [93, 93] <:+: lc :: (t ++ [93]) →
    attrEnd lc (t ++ 93 :: 93 :: r) = some r := by
  intro t
  induction t with
  | nil =>
    intro lc h
    have : lc ≠ 93 := by rintro rfl; exact h ⟨[], [], rfl⟩
    simp [attrEnd, this]
  | cons c t ih =>
    intro lc h
    have h1 : ¬ (c = 93 ∧ lc = 93) := by
      rintro ⟨rfl, rfl⟩; exact h ⟨[], t ++ [93], rfl⟩
    have h2 : ¬ [93, 93] <:+: c :: (t ++ [93]) := fun q => h (q.trans (by
      rw [List.cons_append]; exact (List.suffix_cons _ _).isInfix))
    rw [List.cons_append, attrEnd, if_neg h1, ih c h2]

/-- An attribute makes no difference, wherever it is put, other than that what stands before and after it
come together. -/
theorem C63_attribute {a t r : Str} (ha : Plain a) (ht : ¬ b "]]" <:+: t ++ b "]") :
    tokens (a ++ (b "[[" ++ (t ++ (b "]]" ++ r)))) = tokens (a ++ r) := by
  have h0 : ¬ [93, 93] <:+: (91 : UInt8) :: (t ++ [93]) := by
    intro h
    rcases List.infix_cons_iff.1 h with h | h
    · rw [List.cons_prefix_cons] at h; exact absurd h.1 (by decide)
    · exact ht h
  have e1 : b "[[" ++ (t ++ (b "]]" ++ r)) = 91 :: 91 :: (t ++ 93 :: 93 :: r) := by
    simp [show b "[[" = [91, 91] from rfl, show b "]]" = [93, 93] from rfl]
  have e2 : ∃ f : List (UInt8 × Str), feed (b "[[" ++ (t ++ (b "]]" ++ r))).length (b "[[" ++ (t ++ (b "]]" ++ r))) = (f, (feed r.length r).2) ∧
      f.map (·.1) = (feed r.length r).1.map (·.1) := by
    rw [e1]
    simp only [List.length_cons, feed]
    simp only [show ¬ ((91 : UInt8) = 92) by decide, if_false, if_true, attrEnd_eq t 91 h0]
    rw [feed_fuel _ r.length r (by simp; omega) (Nat.le_refl _)]
    cases hr : feed r.length r with
    | mk f e =>
      cases f with
      | nil => exact ⟨[], rfl, rfl⟩
      | cons x f => exact ⟨_, rfl, rfl⟩
  obtain ⟨f, e2, e3⟩ := e2
  have : chars (a ++ (b "[[" ++ (t ++ (b "]]" ++ r)))) = chars (a ++ r) := by
    simp only [chars, feed_append _ _ ha, e2, List.map_append, e3]
  rw [tokens, tokens, this]

/-- Text without attributes is copied as it is. -/
theorem C64_copied_partial {s : Str} (h : ¬ b "[[" <:+: s) (h1 : s.getLast? ≠ some 92) (h2 : s.getLast? ≠ some 91)
    (h3 : ¬ [92, 10] <:+ s) : echo s = s := by
  have key : ∀ (n : Nat) (s : Str), s.length ≤ n → ¬ [91, 91] <:+: s → s.getLast? ≠ some 92 → s.getLast? ≠ some 91 →
      ¬ [92, 10] <:+ s → ((feed n s).1.map (·.2)).flatten = s := by
    intro n
    induction n with
    | zero =>
      intro s hs _ _ _ _
      cases s with
      | nil => rfl
      | cons => simp at hs
    | succ n ih =>
      intro s hs h h1 h2 h3
      cases s with
      | nil => rfl
      | cons c r =>
        have tl : ∀ x r', r = x :: r' → ((feed n r).1.map (·.2)).flatten = r := by
          rintro x r' rfl
          refine ih _ (by simpa using hs) (fun q => h (q.trans (List.suffix_cons _ _).isInfix)) ?_ ?_
            (fun q => h3 (q.trans (List.suffix_cons _ _)))
          · simpa [List.getLast?_cons_cons] using h1
          · simpa [List.getLast?_cons_cons] using h2
        have tl0 : ((feed n r).1.map (·.2)).flatten = r := by
          cases r with
          | nil => cases n <;> rfl
          | cons x r => exact tl x r rfl
        simp only [feed]
        by_cases c1 : c = 92
        · subst c1
          cases r with
          | nil => exact absurd rfl h1
          | cons x r =>
            simp only [if_true]
            by_cases x1 : x = 10
            · subst x1
              cases r with
              | nil => exact absurd (List.suffix_refl _) h3
              | cons y r =>
                simp only [if_true, List.map_cons, List.flatten_cons]
                have : ((feed n r).1.map (·.2)).flatten = r := by
                  cases r with
                  | nil => cases n <;> rfl
                  | cons z r =>
                    refine ih _ (by simp at hs ⊢; omega) (fun q => h (q.trans ?_)) ?_ ?_ (fun q => h3 (q.trans ?_))
                    · exact List.IsSuffix.isInfix ⟨[92, 10, y], rfl⟩
                    · simpa [List.getLast?_cons_cons] using h1
                    · simpa [List.getLast?_cons_cons] using h2
                    · exact ⟨[92, 10, y], rfl⟩
                rw [this]; rfl
            · simp only [x1, if_false, List.map_cons, List.flatten_cons, tl0]; rfl
        · by_cases c2 : c = 91
          · subst c2
            cases r with
            | nil => exact absurd rfl h2
            | cons x r =>
              have x1 : x ≠ 91 := by
                rintro rfl; exact h ⟨[], r, rfl⟩
              simp only [show ¬ ((91 : UInt8) = 92) by decide, x1, if_false, if_true, List.map_cons, List.flatten_cons, tl0]; rfl
          · simp only [c1, c2, if_false, List.map_cons, List.flatten_cons, tl0]; rfl
  exact key _ s (Nat.le_refl _) h h1 h2 h3

/-! ### Examples -/

private theorem wd (x : UInt8) (h : isWord x = true) : Word x := (isWord_iff x).1 h
private theorem wds {w : Str} (h : w.all isWord = true) : ∀ x ∈ w, Word x := fun x hx => wd x (List.all_eq_true.1 h x hx)
private theorem nwd {x : UInt8} (h : isWord x = false) : ¬ Word x := fun q => by rw [(isWord_iff x).2 q] at h; cases h

/-- `x->*y;"a\"b"/*c*/` and a new line. -/
private def exText : Str := b "x" ++ (b "->*" ++ (b "y" ++ (b ";" ++ ((34 :: ([97, 92, 34, 98] ++ [34])) ++ (b "/*" ++ (b "c" ++ (b "*/" ++ [10])))))))

example : tokens exText = ([b "x", b "->*", b "y", b ";", [34, 97, 92, 34, 98, 34]], true) := by
  refine C63_tokens_partial ?_ ⟨by decide +kernel, by decide +kernel, by decide +kernel⟩
  refine Doc.cons (s := []) .nil (.word (by decide) (wds (by decide +kernel)) (nwd (x := 45) (by decide +kernel))) ?_
  refine Doc.cons (s := []) .nil (.op (c := 121) (by decide +kernel) (by decide +kernel)) ?_
  refine Doc.cons (s := []) .nil (.word (by decide) (wds (by decide +kernel)) (nwd (x := 59) (by decide +kernel))) ?_
  refine Doc.cons (s := []) .nil (.op (c := 34) (by decide +kernel) (by decide +kernel)) ?_
  refine Doc.cons (s := []) .nil (.quoted (c := 47) (.inl rfl) (.char (by decide) (by decide) (.esc (.char (by decide) (by decide) .nil)))) ?_
  exact Doc.nil (.block (t := b "c") (by decide +kernel) (.space (.inr (by decide)) .nil))

/-- A preprocessor line with a comment over two lines, and a pragma. -/
example : tokens (b "#define A 1/2 /* x\n y */ 3\n#pragma omit pack A\n") = ([b "#pragma omit pack A"], true) := by
  decide +kernel

example : Sep (b "#if a/b /* x\n*/\n") := by
  refine Sep.control (t := b "if a/b /* x\n*/") (s := []) ?_ (by decide +kernel) .nil
  refine .char (by decide) (by decide) (.char (by decide) (by decide) (.char (by decide) (by decide) (.char (by decide) (by decide) ?_)))
  refine .slash (c := 98) (by decide) (by decide) (.char (by decide) (by decide) ?_)
  exact Line.comment (u := b " x\n") (t := []) (by decide +kernel) .nil

example : tokens (b "[[nodiscard]] int ") = tokens (b " int ") :=
  C63_attribute (a := []) (t := b "nodiscard") (r := b " int ") ⟨by decide, by decide, by decide⟩ (by decide +kernel)

example : echo (b "int a\\\nb;\n") = b "int a\\\nb;\n" :=
  C64_copied_partial (by decide +kernel) (by decide +kernel) (by decide +kernel) (by decide +kernel)

/-! ### Where the scanner differs -/

/-- `!=` is taken apart. -/
theorem C63_fails_ne : tokens (b "a != b;\n") = ([b "a", b "!", b "=", b "b", b ";"], true) := by decide +kernel

/-- A preprocessor line ending in a slash takes the next line with it. -/
theorem C63_fails_slash : tokens (b "#define DIV /\nint x;\nint y;\n") = tokens (b "int y;\n") := by decide +kernel

/-- A token at the very end of the text is lost. -/
theorem C63_fails_end : tokens (b "class A {};") = tokens (b "class A {}\n") := by decide +kernel

/-- An attribute without spaces makes one word of two. -/
theorem C63_fails_glue : tokens (b "struct[[x]]A;\n") = ([b "structA", b ";"], true) := by decide +kernel

/-- Double brackets in a string are taken for an attribute. -/
theorem C63_fails_string : tokens (b "\"a[[b]]c\";\n") = ([b "\"ac\"", b ";"], true) := by decide +kernel

/-- Two opening brackets that are never closed: the scanner does not return. -/
theorem C63_fails_open : tokens (b "int x; [[ y;\n") = ([b "int", b "x", b ";"], false) := by decide +kernel

/-- Digit separators begin a character constant. -/
theorem C63_fails_digits : tokens (b "x=1'000;y=1'0;\n") = ([b "x", b "=", b "1", b "'000;y=1'", b "0", b ";"], true) := by
  decide +kernel

/-- Attributes are not copied, and the character after one is doubled. -/
theorem C64_fails_attribute : echo (b "[[x]]int a;\n") = b "iint a;\n" := by decide +kernel

/-- The last character is dropped if it is a backslash. -/
theorem C64_fails_end : echo (b "x\\") = b "x" := by decide +kernel

end Verif.Tok
