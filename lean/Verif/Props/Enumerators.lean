import Verif.DeclFacts
/-
C65: the table of an enumeration lists its enumerators.
-/
namespace Verif.Decl
open Verif.Tok (Str b)

namespace C65

/-- An enumerator: its name and the tokens of its value, if one is given. -/
structure Enumerator where
  name : Str
  value : Option (List Str)

/-- The name is a name, and the value has no commas or braces. -/
structure Enumerator.Ok (e : Enumerator) : Prop where
  name : e.name ∉ [b ";", b "=", b ",", b "}"]
  value : ∀ v, e.value = some v → b "," ∉ v ∧ b "}" ∉ v

def Enumerator.toks (e : Enumerator) : List Str :=
  e.name :: (match e.value with | none => [] | some v => b "=" :: v)

/-- The enumerators, separated by commas. -/
def commas : List Enumerator → List Str
  | [] => []
  | [e] => e.toks
  | e :: es => e.toks ++ b "," :: commas es

/-- The underlying type, if given. -/
def underToks : Option (List Str) → List Str
  | none => []
  | some u => b ":" :: u

end C65
open C65

private def stop (t : Str) : Bool := t == b "," || t == b "}"

private theorem skip_value (v : List Str) (bf la s : Str) (k : List Str) (hs : s = b "," ∨ s = b "}")
    (h1 : b "," ∉ v) (h2 : b "}" ∉ v) :
    ∃ bf' la', ((Rd.next ⟨bf, la, b "=", v ++ s :: k⟩).bind fun r => r.skipTo stop) = some ⟨bf', la', s, k⟩ := by
  have hp : stop s = true := by rcases hs with h | h <;> simp [stop, h]
  have hn : ∀ t ∈ v, stop t = false := by
    intro t ht
    simp only [stop, Bool.or_eq_false_iff, beq_eq_false_iff_ne]
    exact ⟨fun h => h1 (h ▸ ht), fun h => h2 (h ▸ ht)⟩
  cases v with
  | nil => exact ⟨la, b "=", by simp [Rd.next, Rd.skipTo]; rw [skipTo.eq_def]; simp [hp]⟩
  | cons t v =>
    obtain ⟨x, y, h⟩ := skip_some stop v la (b "=") t s k hp (hn t (by simp)) fun u hu => hn u (by simp [hu])
    exact ⟨x, y, by simpa [Rd.next, Rd.skipTo] using h⟩

private theorem loop_other (n : Nat) (keys : List Str) (bf la tk t : Str) (rest : List Str)
    (h : tk ∉ [b ";", b "=", b ",", b "}"]) :
    enumLoop (n + 1) keys ⟨bf, la, tk, t :: rest⟩ = enumLoop n keys ⟨la, tk, t, rest⟩ := by
  simp only [List.mem_cons, List.not_mem_nil, or_false, not_or] at h
  obtain ⟨h1, h2, h3, h4⟩ := h
  rw [enumLoop]
  simp [h1, h2, h3, h4, Rd.next]

private theorem loop_sep (n : Nat) (keys : List Str) (bf la tk t : Str) (rest : List Str) (h : tk = b "," ∨ tk = b "}") :
    enumLoop (n + 1) keys ⟨bf, la, tk, t :: rest⟩ =
      enumLoop n (if la = b "," then keys else keys ++ [la]) ⟨la, tk, t, rest⟩ := by
  have e1 : ¬ (b "," = b ";" ∨ b "," = b "=") := by decide
  have e2 : ¬ (b "}" = b ";" ∨ b "}" = b "=") := by decide
  simp only [not_or] at e1 e2
  rw [enumLoop]
  rcases h with rfl | rfl <;> by_cases hl : la = b "," <;> simp [e1, e2, hl, Rd.next]

private theorem entry_step (e : Enumerator) (he : e.Ok) (keys : List Str) (bf la s t : Str) (k : List Str)
    (hs : s = b "," ∨ s = b "}") (n : Nat) (hn : (e.toks.tail ++ s :: t :: k).length < n) :
    ∃ bf' m, k.length < m ∧ enumLoop n keys ⟨bf, la, e.name, e.toks.tail ++ s :: t :: k⟩ =
      enumLoop m (keys ++ [e.name]) ⟨bf', s, t, k⟩ := by
  have hc : e.name ≠ b "," := by have := he.name; simp only [List.mem_cons, not_or] at this; exact this.2.2.1
  obtain ⟨name, value⟩ := e
  cases value with
  | none =>
    simp only [Enumerator.toks, List.tail_cons, List.nil_append, List.length_cons] at hn ⊢
    obtain ⟨n, rfl⟩ : ∃ m, n = m + 2 := ⟨n - 2, by omega⟩
    refine ⟨name, n, by omega, ?_⟩
    rw [loop_other _ _ _ _ _ _ _ he.name, loop_sep _ _ _ _ _ _ _ hs]
    simp only at hc
    simp [hc]
  | some v =>
    obtain ⟨h1, h2⟩ := he.value v rfl
    simp only [Enumerator.toks, List.tail_cons, List.cons_append, List.length_cons, List.length_append] at hn ⊢
    obtain ⟨n, rfl⟩ : ∃ m, n = m + 2 := ⟨n - 2, by omega⟩
    obtain ⟨x, y, h⟩ := skip_value v la name s (t :: k) hs h1 h2
    refine ⟨y, n, by omega, ?_⟩
    rw [loop_other _ _ _ _ _ _ _ he.name]
    rw [enumLoop]
    have e1 : b "=" ≠ b ";" := by decide
    simp only at hc
    have h' : ((Rd.next ⟨la, name, b "=", v ++ s :: t :: k⟩).bind fun r => r.skipTo fun t => t == b "," || t == b "}") =
      some ⟨x, y, s, t :: k⟩ := h
    simp only [e1, if_false, h', hc, true_or, ne_eq, not_false_eq_true, and_self, if_true]
    simp [Rd.next]

private theorem loop_post (post : List Str) (k keys : List Str) (bf la tk : Str) (n : Nat)
    (hp : ∀ t ∈ tk :: post, t ∉ [b ";", b "=", b ",", b "}"]) (hn : (post ++ b ";" :: k).length < n) :
    ∃ bf', (post = [] → bf' = la) ∧ enumLoop n keys ⟨bf, la, tk, post ++ b ";" :: k⟩ =
      some (keys, ⟨bf', (tk :: post).getLast (by simp), b ";", k⟩) := by
  induction post generalizing n bf la tk with
  | nil =>
    simp only [List.nil_append, List.length_cons] at hn ⊢
    obtain ⟨n, rfl⟩ : ∃ m, n = m + 2 := ⟨n - 2, by omega⟩
    refine ⟨la, fun _ => rfl, ?_⟩
    rw [loop_other _ _ _ _ _ _ _ (hp tk (by simp)), enumLoop]
    simp
  | cons t post ih =>
    simp only [List.cons_append, List.length_cons] at hn ⊢
    obtain ⟨n, rfl⟩ : ∃ m, n = m + 1 := ⟨n - 1, by omega⟩
    rw [loop_other _ _ _ _ _ _ _ (hp tk (by simp))]
    rw [List.getLast_cons (by simp)]
    obtain ⟨x, _, h⟩ := ih la tk t n (fun x hx => hp x (by simp only [List.mem_cons] at hx ⊢; exact .inr hx)) (by omega)
    exact ⟨x, by simp, h⟩

private theorem loop_post' (post : List Str) (k keys : List Str) (bf la t : Str) (rest : List Str) (n : Nat)
    (he : t :: rest = post ++ b ";" :: k)
    (hp : ∀ t ∈ post, t ∉ [b ";", b "=", b ",", b "}"]) (hn : rest.length < n) :
    ∃ bf', (∀ v, post = [v] → bf' = la) ∧ enumLoop n keys ⟨bf, la, t, rest⟩ = some (keys, ⟨bf', (la :: post).getLast (by simp), b ";", k⟩) := by
  obtain ⟨n, rfl⟩ : ∃ m, n = m + 1 := ⟨n - 1, by omega⟩
  cases post with
  | nil =>
    simp only [List.nil_append, List.cons.injEq] at he
    obtain ⟨rfl, rfl⟩ := he
    exact ⟨bf, by simp, by rw [enumLoop]; simp⟩
  | cons u post =>
    simp only [List.cons_append, List.cons.injEq] at he
    obtain ⟨rfl, rfl⟩ := he
    rw [List.getLast_cons (by simp)]
    obtain ⟨x, hx, h⟩ := loop_post post k keys bf la t _ hp hn
    exact ⟨x, fun v hv => hx (by simp at hv; exact hv.2), h⟩

private theorem toks_eq (e : Enumerator) : e.toks = e.name :: e.toks.tail := by
  rw [Enumerator.toks]; rfl

private theorem loop_all (es : List Enumerator) (he : es ≠ []) (hok : ∀ e ∈ es, e.Ok) (tr : Bool) (post k keys : List Str)
    (hp : ∀ t ∈ post, t ∉ [b ";", b "=", b ",", b "}"]) (bf la t : Str) (rest : List Str) (n : Nat)
    (hr : t :: rest = commas es ++ ((if tr then [b ","] else []) ++ b "}" :: (post ++ b ";" :: k))) (hn : rest.length < n) :
    ∃ bf', (∀ v, post = [v] → bf' = b "}") ∧ enumLoop n keys ⟨bf, la, t, rest⟩ =
      some (keys ++ es.map (·.name), ⟨bf', (b "}" :: post).getLast (by simp), b ";", k⟩) := by
  induction es generalizing keys bf la t rest n with
  | nil => exact absurd rfl he
  | cons e es ih =>
    cases es with
    | nil =>
      obtain ⟨p0, pr, hpp⟩ : ∃ p0 pr, post ++ b ";" :: k = p0 :: pr := by cases post <;> simp
      rw [commas, toks_eq, List.cons_append] at hr
      simp only [List.cons.injEq] at hr
      obtain ⟨rfl, hr⟩ := hr
      cases tr with
      | false =>
        simp only [Bool.false_eq_true, if_false, List.nil_append] at hr
        rw [hpp] at hr
        subst hr
        obtain ⟨bf', m, hm, h⟩ := entry_step e (hok e (by simp)) keys bf la (b "}") p0 pr (.inr rfl) n hn
        rw [h]
        simpa using loop_post' post k (keys ++ [e.name]) bf' (b "}") p0 pr m hpp.symm hp hm
      | true =>
        simp only [if_true, List.cons_append, List.nil_append] at hr
        rw [hpp] at hr
        subst hr
        obtain ⟨bf', m, hm, h⟩ := entry_step e (hok e (by simp)) keys bf la (b ",") (b "}") (p0 :: pr) (.inl rfl) n hn
        rw [h]
        simp only [List.length_cons] at hm
        obtain ⟨m, rfl⟩ : ∃ q, m = q + 1 := ⟨m - 1, by omega⟩
        rw [loop_sep _ _ _ _ _ _ _ (.inr rfl)]
        simpa using loop_post' post k (keys ++ [e.name]) (b ",") (b "}") p0 pr m hpp.symm hp (by omega)
    | cons e2 es =>
      rw [show commas (e :: e2 :: es) = e.toks ++ b "," :: commas (e2 :: es) from rfl, toks_eq] at hr
      simp only [List.cons_append, List.append_assoc, List.cons.injEq] at hr
      obtain ⟨rfl, hr⟩ := hr
      obtain ⟨q0, qr, hq⟩ : ∃ q0 qr, commas (e2 :: es) ++ ((if tr then [b ","] else []) ++ b "}" :: (post ++ b ";" :: k)) = q0 :: qr := by
        cases commas (e2 :: es) with
        | nil => cases tr <;> simp
        | cons a l => simp
      rw [hq] at hr
      subst hr
      obtain ⟨bf', m, hm, h⟩ := entry_step e (hok e (by simp)) keys bf la (b ",") q0 qr (.inl rfl) n hn
      rw [h]
      obtain ⟨x, hx, h2⟩ := ih (by simp) (fun z hz => hok z (by simp only [List.mem_cons] at hz ⊢; exact .inr hz)) (keys ++ [e.name]) bf' (b ",") q0 qr m hq.symm hm
      exact ⟨x, hx, by rw [h2]; simp⟩

/-- **C65** (where values have no commas or braces; `enum` and `enum class`, with or without an underlying
type, with or without a trailing comma, and anything without `,` `=` `}` between the closing brace and the
semicolon): the enumeration is recorded under its name with exactly its enumerators, in order, and reading
goes on at its semicolon with the token before it as the last one; if this is a single name, the one before that is the
brace. -/
theorem C65_enumerators_partial (cls : Bool) (name : Str) (under : Option (List Str)) (es : List Enumerator) (tr : Bool)
    (post k : List Str) (bf la t : Str) (rest : List Str)
    (hn : name ≠ b "class") (hu : ∀ u, under = some u → ∀ x ∈ u, starts ";{" x = false)
    (he : es ≠ []) (hok : ∀ e ∈ es, e.Ok) (hp : ∀ t ∈ post, t ∉ [b ";", b "=", b ",", b "}"])
    (hr : t :: rest = (if cls then [b "class"] else []) ++ (name :: (underToks under ++
      (b "{" :: (commas es ++ ((if tr then [b ","] else []) ++ b "}" :: (post ++ b ";" :: k))))))) :
    ∃ bf', (∀ v, post = [v] → bf' = b "}") ∧ enumAction ⟨bf, la, t, rest⟩ =
      some (name, some (es.map (·.name)), ⟨bf', (b "}" :: post).getLast (by simp), b ";", k⟩) := by
  obtain ⟨q0, qr, hq⟩ : ∃ q0 qr, commas es ++ ((if tr then [b ","] else []) ++ b "}" :: (post ++ b ";" :: k)) = q0 :: qr := by
    cases commas es with
    | nil => cases tr <;> simp
    | cons a l => simp
  -- from the name on
  have key : ∀ bf la, ∃ bf', (∀ v, post = [v] → bf' = b "}") ∧ enumAction ⟨bf, la, name, underToks under ++
      (b "{" :: q0 :: qr)⟩ = some (name, some (es.map (·.name)), ⟨bf', (b "}" :: post).getLast (by simp), b ";", k⟩) := by
    intro bf la
    have brace : ∀ bf la n, qr.length + 1 < n → ∃ bf', (∀ v, post = [v] → bf' = b "}") ∧ enumLoop n [] ⟨bf, la, b "{", q0 :: qr⟩ =
        some (es.map (·.name), ⟨bf', (b "}" :: post).getLast (by simp), b ";", k⟩) := by
      intro bf la n hn
      obtain ⟨n, rfl⟩ : ∃ m, n = m + 1 := ⟨n - 1, by omega⟩
      rw [loop_other _ _ _ _ _ _ _ (by decide)]
      simpa using loop_all es he hok tr post k [] hp la (b "{") q0 qr n hq.symm (by omega)
    have c1 : b "{" ≠ b ":" := by decide
    rw [enumAction]
    simp only [hn, if_false]
    cases under with
    | none =>
      rw [underToks]
      obtain ⟨x, hx, h⟩ := brace la name (qr.length + 2) (by omega)
      refine ⟨x, hx, ?_⟩
      simp [Rd.next, c1, h]
    | some u =>
      rw [underToks]
      have hs : ∃ bf' la', Rd.skipTo ⟨la, name, b ":", u ++ b "{" :: q0 :: qr⟩ (starts ";{") = some ⟨bf', la', b "{", q0 :: qr⟩ :=
        skip_some _ u la name (b ":") (b "{") (q0 :: qr) (by decide) (by decide) (hu u rfl)
      obtain ⟨x, y, h1⟩ := hs
      obtain ⟨x', hx, h⟩ := brace x y (qr.length + 2) (by omega)
      refine ⟨x', hx, ?_⟩
      simp [Rd.next, h1, h]
  rw [hq] at hr
  cases cls with
  | false =>
    simp only [Bool.false_eq_true, if_false, List.nil_append, List.cons.injEq] at hr
    obtain ⟨rfl, rfl⟩ := hr
    exact key bf la
  | true =>
    simp only [if_true, List.cons_append, List.nil_append, List.cons.injEq] at hr
    obtain ⟨rfl, rfl⟩ := hr
    obtain ⟨x, hx, h⟩ := key la (b "class")
    refine ⟨x, hx, ?_⟩
    rw [← h, enumAction, enumAction]
    simp [Rd.next, hn]

/-- A declaration without braces records nothing. -/
theorem C65_declaration (name : Str) (k : List Str) (bf la : Str) (hn : name ≠ b "class") :
    enumAction ⟨bf, la, name, b ";" :: k⟩ = some (name, none, ⟨la, name, b ";", k⟩) := by
  have h1 : b ";" ≠ b ":" := by decide
  have h2 : b ";" ≠ b "{" := by decide
  simp [enumAction, hn, Rd.next, h1, h2]

/-- An enumeration from its tokens, from after the word `enum`: name and enumerators. -/
def enumOf (l : List Str) : Option (Str × Option (List Str)) :=
  match l with
  | [] => none
  | t :: rest => (enumAction ⟨[], [], t, rest⟩).map fun x => (x.1, x.2.1)

example : ∃ bf, (∀ v, [b "x"] = [v] → bf = b "}") ∧ enumAction ⟨[], [], b "class", [b "E", b ":", b "int", b "{", b "a", b "=", b "1", b "<<", b "3", b ",",
    b "c", b ",", b "}", b "x", b ";", b "int"]⟩ = some (b "E", some [b "a", b "c"], ⟨bf, b "x", b ";", [b "int"]⟩) :=
  C65_enumerators_partial true (b "E") (some [b "int"]) [⟨b "a", some [b "1", b "<<", b "3"]⟩, ⟨b "c", none⟩] true [b "x"] [b "int"]
    [] [] _ _ (by decide) (by intro u h; cases h; decide) (by simp)
    (by
      intro e he
      simp only [List.mem_cons, List.not_mem_nil, or_false] at he
      rcases he with rfl | rfl
      · exact ⟨by decide, by intro v hv; cases hv; decide⟩
      · exact ⟨by decide, by intro v hv; cases hv⟩) (by decide) (by decide +kernel)

example : enumOf [b "E", b "{", b "a", b ",", b "b", b "=", b "2", b ",", b "c", b "}",
      b ";"] = some (b "E", some [b "a", b "b", b "c"]) := by decide +kernel

/-- An empty enumeration gets the enumerator `{`. -/
theorem C65_fails_empty : enumOf [b "E", b "{", b "}", b ";"] = some (b "E", some [b "{"]) := by decide +kernel

/-- A comma within a value ends it, and a bogus enumerator follows. -/
theorem C65_fails_comma : enumOf [b "E", b "{", b "a", b "=", b "f", b "(", b "1", b ",", b "2", b ")", b ",",
      b "b", b "}", b ";"] = some (b "E", some [b "a", b ")", b "b"]) := by decide +kernel

/-- So does a brace: `int{1}`. -/
theorem C65_fails_brace : enumOf [b "E", b "{", b "a", b "=", b "int", b "{", b "1", b "}", b ",", b "b",
      b "}", b ";"] = some (b "E", some [b "a", b "}", b "b"]) := by decide +kernel

/-- Variables declared along with the enumeration become enumerators. -/
theorem C65_fails_variables : enumOf [b "E", b "{", b "a", b "}", b "x", b ",", b "y",
      b ";"] = some (b "E", some [b "a", b "x"]) := by decide +kernel

/-- An initialised variable: the scan runs past the semicolon, taking enumerators from what follows. -/
theorem C65_fails_initialised :
    enumOf [b "E", b "{", b "a", b "}", b "x", b "=", b "a", b ";", b "void", b "f", b "(", b "int", b "g", b ",",
      b "int", b "h", b ",", b "int", b "k", b ")", b ";"] = some (b "E", some [b "a", b "x", b "h"]) := by
  decide +kernel

/-- `enum struct` is not known: the name recorded is `struct`, and the enumerators are not recorded. -/
theorem C65_fails_struct : enumOf [b "struct", b "E", b "{", b "a", b ",", b "b", b "}",
      b ";"] = some (b "struct", none) := by decide +kernel

end Verif.Decl
