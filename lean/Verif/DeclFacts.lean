import Verif.Decl
/-
Lemmas about the reader of declarations (`Decl`): skipping, matching brackets, and what a turn of the loop
over class members does at each kind of token.
-/
namespace Verif.Decl
open Verif.Tok (Str b)

theorem skip_list (p : Str → Bool) (v : List Str) (bf la tk s : Str) (k : List Str) (hp : p s = true)
    (h0 : p tk = false) (hv : ∀ t ∈ v, p t = false) :
    skipTo p bf la tk (v ++ s :: k) =
      some ⟨(la :: tk :: v).getD v.length [], (tk :: v).getD v.length [], s, k⟩ := by
  induction v generalizing bf la tk with
  | nil => rw [skipTo.eq_def]; simp only [h0]; simp; rw [skipTo.eq_def]; simp [hp]
  | cons t v ih =>
    rw [skipTo.eq_def]; simp only [h0]; simp only [Bool.false_eq_true, if_false, List.cons_append]
    rw [ih la tk t (hv t (by simp)) fun x hx => hv x (by simp [hx])]
    simp only [List.getD_cons_succ, List.length_cons]

theorem skip_now (p : Str → Bool) (bf la tk : Str) (k : List Str) (hp : p tk = true) :
    Rd.skipTo ⟨bf, la, tk, k⟩ p = some ⟨bf, la, tk, k⟩ := by
  rw [Rd.skipTo, skipTo.eq_def]; simp [hp]

theorem skip_some (p : Str → Bool) (v : List Str) (bf la tk s : Str) (k : List Str) (hp : p s = true)
    (h0 : p tk = false) (hv : ∀ t ∈ v, p t = false) :
    ∃ bf' la', Rd.skipTo ⟨bf, la, tk, v ++ s :: k⟩ p = some ⟨bf', la', s, k⟩ :=
  ⟨_, _, skip_list p v bf la tk s k hp h0 hv⟩

/-- Skipping from anywhere in `tk :: v`. -/
theorem skip_any (p : Str → Bool) (l : List Str) (bf la tk s : Str) (rest k : List Str) (hr : tk :: rest = l ++ s :: k)
    (hp : p s = true) (hv : ∀ t ∈ l, p t = false) :
    ∃ bf' la', Rd.skipTo ⟨bf, la, tk, rest⟩ p = some ⟨bf', la', s, k⟩ := by
  cases l with
  | nil =>
    simp only [List.nil_append, List.cons.injEq] at hr
    obtain ⟨rfl, rfl⟩ := hr
    exact ⟨_, _, skip_now _ _ _ _ _ hp⟩
  | cons t v =>
    simp only [List.cons_append, List.cons.injEq] at hr
    obtain ⟨rfl, rfl⟩ := hr
    exact skip_some p v bf la tk s k hp (hv tk (by simp)) fun x hx => hv x (by simp [hx])

/-! ### Brackets -/

/-- Tokens in which `l` and `r` are balanced. -/
inductive Bal (l r : Str) : List Str → Prop
  | nil : Bal l r []
  | tok {t c} : t ≠ l → t ≠ r → ¬ (l = b "<" ∧ t = b ">>") → Bal l r c → Bal l r (t :: c)
  | nest {a c} : Bal l r a → Bal l r c → Bal l r (l :: (a ++ r :: c))

theorem gobbleLoop_bal {l r : Str} (hlr : l ≠ r) (hrr : ¬ (l = b "<" ∧ r = b ">>")) {a : List Str} (ha : Bal l r a) :
    ∀ (cnt : Int) (bf la : Str) (k : List Str), 0 ≤ cnt → k ≠ [] → ∃ bf' la',
      gobbleLoop l r cnt bf la (a ++ k) = gobbleLoop l r cnt bf' la' k ∧ la' ∈ la :: a := by
  have hll : ¬ (l = b ">>" ∧ l = b "<") := by rintro ⟨h, h'⟩; rw [h] at h'; exact absurd h' (by decide)
  have hrr' : ¬ (r = b ">>" ∧ l = b "<") := fun h => hrr ⟨h.2, h.1⟩
  induction ha with
  | nil => intro cnt bf la k _ _; exact ⟨bf, la, rfl, by simp⟩
  | tok h1 h2 h3 _ ih =>
    rename_i t c _
    intro cnt bf la k hc hk
    obtain ⟨x, y, h, hm⟩ := ih cnt la t k hc hk
    refine ⟨x, y, ?_, by simp only [List.mem_cons] at hm ⊢; exact .inr hm⟩
    rw [← h, List.cons_append, gobbleLoop]
    have h3' : ¬ (t = b ">>" ∧ l = b "<") := fun h => h3 ⟨h.2, h.1⟩
    simp only [h2, false_and, if_false, h1, h3']
  | nest _ _ ih1 ih2 =>
    rename_i a c _ _
    intro cnt bf la k hc hk
    obtain ⟨x, y, h, _⟩ := ih1 (cnt + 1) la l (r :: (c ++ k)) (by omega) (by simp)
    obtain ⟨x', y', h', hm⟩ := ih2 cnt y r k hc hk
    refine ⟨x', y', ?_, by
      simp only [List.mem_cons, List.mem_append] at hm ⊢
      exact .inr (.inr (.inr hm))⟩
    rw [← h']
    rw [show l :: (a ++ r :: c) ++ k = l :: (a ++ r :: (c ++ k)) by simp, gobbleLoop]
    simp only [hlr, false_and, if_false, if_true, hll]
    rw [h, gobbleLoop]
    have : ¬ (True ∧ ¬ cnt + 1 > 0) := by omega
    simp only [if_false, hlr.symm, if_true, hrr']
    rw [show cnt + 1 - 1 = cnt by omega, if_neg this]

theorem gobble_bal {l r : Str} (hlr : l ≠ r) (hrr : ¬ (l = b "<" ∧ r = b ">>")) {a : List Str} (ha : Bal l r a)
    (bf la tk : Str) (k : List Str) (ht : tk ≠ l ++ r) :
    ∃ bf' la', gobble ⟨bf, la, tk, a ++ r :: k⟩ l r = some ⟨bf', la', r, k⟩ ∧ la' ∈ tk :: a := by
  obtain ⟨x, y, h, hm⟩ := gobbleLoop_bal hlr hrr ha 0 la tk (r :: k) (by omega) (by simp)
  exact ⟨x, y, by simp [gobble, ht, h, gobbleLoop], hm⟩

/-- Template arguments within template arguments: balanced, `>` and `>>` closing one and two. -/
inductive Args : List Str → Prop
  | nil : Args []
  | tok {t c} : t ≠ b "<" → t ≠ b ">" → t ≠ b ">>" → Args c → Args (t :: c)
  | nest {a c} : Args a → Args c → Args (b "<" :: (a ++ b ">" :: c))
  | two {a d c} : Args a → Args d → Args c → Args (b "<" :: (a ++ b "<" :: (d ++ b ">>" :: c)))

/-- Template arguments in which every `>>` closes a list that is itself within a list. -/
inductive TopArgs : List Str → Prop
  | nil : TopArgs []
  | tok {t c} : t ≠ b "<" → t ≠ b ">" → t ≠ b ">>" → TopArgs c → TopArgs (t :: c)
  | nest {a c} : Args a → TopArgs c → TopArgs (b "<" :: (a ++ b ">" :: c))

private theorem step_tok {t : Str} (h1 : t ≠ b "<") (h2 : t ≠ b ">") (h3 : t ≠ b ">>") (cnt : Int) (bf la : Str) (k : List Str) :
    gobbleLoop (b "<") (b ">") cnt bf la (t :: k) = gobbleLoop (b "<") (b ">") cnt la t k := by
  rw [gobbleLoop]; simp only [h1, h2, h3, false_and, if_false]

private theorem step_open (cnt : Int) (bf la : Str) (k : List Str) :
    gobbleLoop (b "<") (b ">") cnt bf la (b "<" :: k) = gobbleLoop (b "<") (b ">") (cnt + 1) la (b "<") k := by
  have e1 : b "<" ≠ b ">" := by decide
  have e2 : b "<" ≠ b ">>" := by decide
  rw [gobbleLoop]; simp only [e1, e2, false_and, if_false, if_true]

private theorem step_close (cnt : Int) (h : 0 < cnt) (bf la : Str) (k : List Str) :
    gobbleLoop (b "<") (b ">") cnt bf la (b ">" :: k) = gobbleLoop (b "<") (b ">") (cnt - 1) la (b ">") k := by
  have e1 : b ">" ≠ b "<" := by decide
  have e2 : b ">" ≠ b ">>" := by decide
  rw [gobbleLoop]; simp only [e1, e2, false_and, if_false, if_true]
  rw [if_neg (by omega)]

private theorem step_two (cnt : Int) (h : 2 < cnt) (bf la : Str) (k : List Str) :
    gobbleLoop (b "<") (b ">") cnt bf la (b ">>" :: k) = gobbleLoop (b "<") (b ">") (cnt - 2) la (b ">>") k := by
  have e1 : b ">>" ≠ b "<" := by decide
  have e2 : b ">>" ≠ b ">" := by decide
  rw [gobbleLoop]; simp only [e1, e2, false_and, if_false]
  simp only [and_self, if_true]
  rw [if_neg (by omega)]

theorem gobbleLoop_args {a : List Str} (ha : Args a) : ∀ (cnt : Int) (bf la : Str) (k : List Str), 1 ≤ cnt → ∃ bf' la',
    gobbleLoop (b "<") (b ">") cnt bf la (a ++ k) = gobbleLoop (b "<") (b ">") cnt bf' la' k ∧ la' ∈ la :: a := by
  induction ha with
  | nil => intro cnt bf la k _; exact ⟨bf, la, rfl, by simp⟩
  | tok h1 h2 h3 _ ih =>
    rename_i t c _
    intro cnt bf la k hc
    obtain ⟨x, y, h, hm⟩ := ih cnt la t k hc
    exact ⟨x, y, by rw [← h, List.cons_append, step_tok h1 h2 h3], by simp only [List.mem_cons] at hm ⊢; exact .inr hm⟩
  | nest _ _ ih1 ih2 =>
    rename_i a c _ _
    intro cnt bf la k hc
    obtain ⟨x, y, h, _⟩ := ih1 (cnt + 1) la (b "<") (b ">" :: (c ++ k)) (by omega)
    obtain ⟨x', y', h', hm⟩ := ih2 cnt y (b ">") k hc
    refine ⟨x', y', ?_, by simp only [List.mem_cons, List.mem_append] at hm ⊢; exact .inr (.inr (.inr hm))⟩
    rw [← h', show b "<" :: (a ++ b ">" :: c) ++ k = b "<" :: (a ++ b ">" :: (c ++ k)) by simp, step_open, h,
      step_close _ (by omega), show cnt + 1 - 1 = cnt by omega]
  | two _ _ _ ih1 ih2 ih3 =>
    rename_i a d c _ _ _
    intro cnt bf la k hc
    obtain ⟨x, y, h, _⟩ := ih1 (cnt + 1) la (b "<") (b "<" :: (d ++ b ">>" :: (c ++ k))) (by omega)
    obtain ⟨x', y', h', _⟩ := ih2 (cnt + 1 + 1) y (b "<") (b ">>" :: (c ++ k)) (by omega)
    obtain ⟨x2, y2, h2, hm⟩ := ih3 cnt y' (b ">>") k hc
    refine ⟨x2, y2, ?_, by
      simp only [List.mem_cons, List.mem_append] at hm ⊢
      exact .inr (.inr (.inr (.inr (.inr hm))))⟩
    rw [← h2, show b "<" :: (a ++ b "<" :: (d ++ b ">>" :: c)) ++ k = b "<" :: (a ++ b "<" :: (d ++ b ">>" :: (c ++ k))) by simp,
      step_open, h, step_open, h', step_two _ (by omega), show cnt + 1 + 1 - 2 = cnt by omega]

theorem gobbleLoop_top {a : List Str} (ha : TopArgs a) : ∀ (bf la : Str) (k : List Str), ∃ bf' la',
    gobbleLoop (b "<") (b ">") 0 bf la (a ++ k) = gobbleLoop (b "<") (b ">") 0 bf' la' k ∧ la' ∈ la :: a := by
  induction ha with
  | nil => intro bf la k; exact ⟨bf, la, rfl, by simp⟩
  | tok h1 h2 h3 _ ih =>
    rename_i t c _
    intro bf la k
    obtain ⟨x, y, h, hm⟩ := ih la t k
    exact ⟨x, y, by rw [← h, List.cons_append, step_tok h1 h2 h3], by simp only [List.mem_cons] at hm ⊢; exact .inr hm⟩
  | nest ha _ ih2 =>
    rename_i a c _
    intro bf la k
    obtain ⟨x, y, h, _⟩ := gobbleLoop_args ha (0 + 1) la (b "<") (b ">" :: (c ++ k)) (by omega)
    obtain ⟨x', y', h', hm⟩ := ih2 y (b ">") k
    refine ⟨x', y', ?_, by simp only [List.mem_cons, List.mem_append] at hm ⊢; exact .inr (.inr (.inr hm))⟩
    rw [← h', show b "<" :: (a ++ b ">" :: c) ++ k = b "<" :: (a ++ b ">" :: (c ++ k)) by simp, step_open, h,
      step_close _ (by omega), show (0 : Int) + 1 - 1 = 0 by omega]

theorem gobble_top {a : List Str} (ha : TopArgs a) (bf la : Str) (k : List Str) :
    ∃ bf' la', gobble ⟨bf, la, b "<", a ++ b ">" :: k⟩ (b "<") (b ">") = some ⟨bf', la', b ">", k⟩ ∧ la' ∈ b "<" :: a := by
  obtain ⟨x, y, h, hm⟩ := gobbleLoop_top ha la (b "<") (b ">" :: k)
  have e3 : b "<" ≠ b "<" ++ b ">" := by decide
  exact ⟨x, y, by simp [gobble, e3, h, gobbleLoop], hm⟩

/-- `<` … `>>` closing two. -/
theorem gobble_two {a c : List Str} (ha : TopArgs a) (hc : Args c) (bf la : Str) (k : List Str) :
    ∃ bf' la', gobble ⟨bf, la, b "<", a ++ b "<" :: (c ++ b ">>" :: k)⟩ (b "<") (b ">") = some ⟨bf', la', b ">>", k⟩ ∧
      la' ∈ b "<" :: c := by
  have e3 : b "<" ≠ b "<" ++ b ">" := by decide
  have e4 : b "<" ≠ b ">>" := by decide
  have e5 : b ">>" ≠ b ">" := by decide
  obtain ⟨x, y, h, _⟩ := gobbleLoop_top ha la (b "<") (b "<" :: (c ++ b ">>" :: k))
  obtain ⟨x', y', h', hm⟩ := gobbleLoop_args hc (0 + 1) y (b "<") (b ">>" :: k) (by omega)
  refine ⟨x', y', ?_, hm⟩
  rw [gobble]
  simp only [e3, if_false]
  rw [h, step_open, h', gobbleLoop]
  simp [e5, e4.symm]

/-- Skipping to a colon or brace. -/
theorem gobble_plain (r : Str) (hr : r ≠ []) (a : List Str) (h : r ∉ a) (h0 : [] ∉ a) (bf la tk : Str) (k : List Str) (ht : tk ≠ r) :
    ∃ bf' la', gobble ⟨bf, la, tk, a ++ r :: k⟩ [] r = some ⟨bf', la', r, k⟩ := by
  have hbal : Bal [] r a := by
    induction a with
    | nil => exact .nil
    | cons t a ih =>
      simp only [List.mem_cons, not_or] at h h0
      exact .tok (fun e => h0.1 e.symm) (fun e => h.1 e.symm) (by rintro ⟨h, _⟩; exact absurd h (by decide)) (ih h.2 h0.2)
  obtain ⟨x, y, h, _⟩ := gobble_bal (fun e => hr e.symm) (by rintro ⟨h, _⟩; exact absurd h (by decide)) hbal bf la tk k
    (by simpa using ht)
  exact ⟨x, y, h⟩

/-! ### A turn of the loop -/

theorem turn_tail1 (o : Opts) (s : St) (bf la t : Str) (rest : List Str)
    (h1 : t ∉ [b "private", b "protected", b "public", b "typedef", b "template", b "class", b "struct", b "using", b "enum"])
    (h2 : ¬ (la = b "union" ∧ t = b "{")) : turn o s ⟨bf, la, t, rest⟩ = tail1 o s ⟨bf, la, t, rest⟩ := by
  simp only [List.mem_cons, List.not_mem_nil, or_false, not_or] at h1
  obtain ⟨a1, a2, a3, a4, a5, a6, a7, a8, a9⟩ := h1
  rw [turn, if_neg (by simp [a1, a2, a3]), if_neg a4, if_neg a5, turn1]
  simp only [a6, a7, a8, a9, or_self, if_false, h2]

theorem tail1_quiet (o : Opts) (s : St) (bf la t : Str) (rest : List Str) (h : starts "{;,:=" t = false ∨ t = b "::")
    (h2 : t ∉ [b "operator", b "alignas", b "static", b "const", b "friend"]) (h3 : t.head? ≠ some 40) :
    tail1 o s ⟨bf, la, t, rest⟩ = tail2 s ⟨bf, la, t, rest⟩ := by
  simp only [List.mem_cons, List.not_mem_nil, or_false, not_or] at h2
  obtain ⟨a1, a2, a3, a4, a5⟩ := h2
  have h' : ¬ (starts "{;,:=" t = true ∧ t ≠ b "::") := by
    rintro ⟨x, y⟩; rcases h with h | h
    · rw [h] at x; exact absurd x (by simp)
    · exact y h
  rw [tail1]
  simp only [h', if_false, a1, a2, a3, a4, a5, h3]

theorem tail1_static (o : Opts) (s : St) (bf la : Str) (rest : List Str) :
    tail1 o s ⟨bf, la, b "static", rest⟩ = tail2 { s with static := true } ⟨bf, la, b "static", rest⟩ := by
  have h' : ¬ (starts "{;,:=" (b "static") = true ∧ b "static" ≠ b "::") := by decide
  have e1 : b "static" ≠ b "operator" := by decide
  have e2 : b "static" ≠ b "alignas" := by decide
  have e3 : b "static" ≠ b "const" := by decide
  have e4 : b "static" ≠ b "friend" := by decide
  have e5 : (b "static").head? ≠ some 40 := by decide
  rw [tail1]
  simp only [h', if_false, e1, e2, e3, e4, e5, if_true]

theorem tail1_const (o : Opts) (s : St) (bf la : Str) (rest : List Str) :
    tail1 o s ⟨bf, la, b "const", rest⟩ = tail2 { s with const := true } ⟨bf, la, b "const", rest⟩ := by
  have h' : ¬ (starts "{;,:=" (b "const") = true ∧ b "const" ≠ b "::") := by decide
  have e1 : b "const" ≠ b "operator" := by decide
  have e2 : b "const" ≠ b "alignas" := by decide
  have e3 : b "const" ≠ b "static" := by decide
  have e4 : b "const" ≠ b "friend" := by decide
  have e5 : (b "const").head? ≠ some 40 := by decide
  rw [tail1]
  simp only [h', if_false, e1, e2, e3, e4, e5, if_true]

theorem tail2_none (s : St) (bf la t : Str) (rest : List Str) (h : t ∉ [b "[", b "{", b "<"]) :
    tail2 s ⟨bf, la, t, rest⟩ = .go s ⟨bf, la, t, rest⟩ := by
  simp only [List.mem_cons, List.not_mem_nil, or_false, not_or] at h
  obtain ⟨a1, a2, a3⟩ := h
  rw [tail2]
  simp only [a1, a2, a3, if_false, Turn.of]

theorem tail2_brace (s : St) (bf la : Str) (rest : List Str) {bf' la' k}
    (h : gobble ⟨bf, la, b "{", rest⟩ (b "{") (b "}") = some ⟨bf', la', b "}", k⟩) :
    tail2 s ⟨bf, la, b "{", rest⟩ = .go s ⟨bf', la', b "}", k⟩ := by
  have e1 : b "{" ≠ b "[" := by decide
  have e2 : b "}" ≠ b "<" := by decide
  rw [tail2]
  simp only [e1, if_false, if_true, h, e2, Turn.of]

theorem tail2_angle (s : St) (bf la : Str) (rest : List Str) {r'}
    (h : gobble ⟨bf, la, b "<", rest⟩ (b "<") (b ">") = some r') :
    tail2 s ⟨bf, la, b "<", rest⟩ = .go s r' := by
  have e1 : b "<" ≠ b "[" := by decide
  have e2 : b "<" ≠ b "{" := by decide
  rw [tail2]
  simp only [e1, if_false, if_true, h, e2, Turn.of]

/-- After the scalar part, at a separator, nothing else happens. -/
private theorem tail1_rest (sep : Str) (hsep : sep = b ";" ∨ sep = b ",") :
    sep ∉ [b "operator", b "alignas", b "static", b "const", b "friend"] ∧ sep.head? ≠ some 40 ∧
      sep ∉ [b "[", b "{", b "<"] := by
  rcases hsep with rfl | rfl <;> decide

theorem tail1_scalar (o : Opts) (s : St) (bf la t : Str) (rest : List Str) (h1 : starts "{;,:=" t = true) (h2 : t ≠ b "::")
    (h3 : t.head? ≠ some 123) {bf' la' sep k} (hs : Rd.skipTo ⟨bf, la, t, rest⟩ (starts ";,") = some ⟨bf', la', sep, k⟩)
    (hsep : sep = b ";" ∨ sep = b ",") :
    tail1 o s ⟨bf, la, t, rest⟩ = .go (if identStart la = true then s.register la (.data (bf == b "&")) else s) ⟨bf', la', sep, k⟩ := by
  obtain ⟨r1, r2, r3⟩ := tail1_rest sep hsep
  have r4 := tail2_none (if identStart la = true then s.register la (.data (bf == b "&")) else s) bf' la' sep k r3
  simp only [List.mem_cons, List.not_mem_nil, or_false, not_or] at r1
  obtain ⟨a1, a2, a3, a4, a5⟩ := r1
  rw [tail1]
  simp only [h1, h2, ne_eq, not_false_eq_true, and_self, if_true, h3, if_false, hs, Option.map_some, a1, a2, a3, a4, a5, r2, r4]

theorem tail1_brace (o : Opts) (s : St) (bf la : Str) (rest : List Str) {r' bf' la' sep k}
    (hg : gobble ⟨bf, la, b "{", rest⟩ (b "{") (b "}") = some r')
    (hs : r'.skipTo (starts ";,") = some ⟨bf', la', sep, k⟩)
    (hsep : sep = b ";" ∨ sep = b ",") :
    tail1 o s ⟨bf, la, b "{", rest⟩ = .go (if identStart la = true then s.register la (.data (bf == b "&")) else s) ⟨bf', la', sep, k⟩ := by
  obtain ⟨r1, r2, r3⟩ := tail1_rest sep hsep
  have r4 := tail2_none (if identStart la = true then s.register la (.data (bf == b "&")) else s) bf' la' sep k r3
  simp only [List.mem_cons, List.not_mem_nil, or_false, not_or] at r1
  obtain ⟨a1, a2, a3, a4, a5⟩ := r1
  have e1 : starts "{;,:=" (b "{") = true := by decide
  have e2 : b "{" ≠ b "::" := by decide
  have e3 : (b "{").head? = some 123 := by decide
  rw [tail1]
  simp only [e1, e2, ne_eq, not_false_eq_true, and_self, if_true, e3, hg, hs, Option.map_some, a1, a2, a3, a4, a5, r2, r4, if_false]

theorem tail1_friend (o : Opts) (s : St) (bf la : Str) (rest : List Str) {r'}
    (hs : Rd.skipTo ⟨bf, la, b "friend", rest⟩ (· == b ";") = some r') (ht : r'.tok = b ";") :
    tail1 o s ⟨bf, la, b "friend", rest⟩ = .go s r' := by
  have h' : ¬ (starts "{;,:=" (b "friend") = true ∧ b "friend" ≠ b "::") := by decide
  have e1 : b "friend" ≠ b "operator" := by decide
  have e2 : b "friend" ≠ b "alignas" := by decide
  have e3 : b "friend" ≠ b "static" := by decide
  have e4 : b "friend" ≠ b "const" := by decide
  have e5 : (b ";").head? ≠ some 40 := by decide
  obtain ⟨x, y, z, k⟩ := r'
  simp only at ht
  subst ht
  rw [tail1]
  simp only [h', if_false, e1, e2, e3, e4, hs, e5, if_true]
  exact tail2_none _ _ _ _ _ (by decide)

theorem tail1_function (o : Opts) (s : St) (bf la t : Str) (rest : List Str) (h : t = b "(" ∨ t = b "()") {s' r'}
    (hf : function o s ⟨bf, la, t, rest⟩ = some (s', r')) :
    tail1 o s ⟨bf, la, t, rest⟩ = tail2 s' r' := by
  have h' : ¬ (starts "{;,:=" t = true ∧ t ≠ b "::") := by rcases h with rfl | rfl <;> decide
  have h2 : t ∉ [b "operator", b "alignas", b "static", b "const", b "friend"] := by rcases h with rfl | rfl <;> decide
  have h3 : t.head? = some 40 := by rcases h with rfl | rfl <;> decide
  simp only [List.mem_cons, List.not_mem_nil, or_false, not_or] at h2
  obtain ⟨a1, a2, a3, a4, a5⟩ := h2
  rw [tail1]
  simp only [h', if_false, a1, a2, a3, a4, a5, h3, if_true, hf]

end Verif.Decl
