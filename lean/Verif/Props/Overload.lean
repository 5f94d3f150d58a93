import Verif.Overload
import Verif.Props.Scan
import Verif.Props.Bases
import Verif.XmlKeys
/-
C81: the pointers declared for the member functions of a class have the types of the functions.
-/
namespace Verif.Over
open Verif.Tok (Str b)
open Verif.Scan (Reader Scanned gobble findIn isSpace trimWS replaceShornTypes Balanced join lastTok angleDepth depth)
open Verif.Decl (starts identStart)
open Verif.Xml (dec)
open Verif.Bases (idChar idStart Ident)

namespace C81

/-! ### What is wanted -/

/-- The text consists of these tokens: each is followed by a space, by the end of the text or, if it is an
identifier, by `::`. -/
inductive Spells : Str → List Str → Prop
  | nil : Spells [] []
  | space {s ts} : Spells s ts → Spells (32 :: s) ts
  | tok {t s ts} : t ≠ [] → (s = [] ∨ s.head? = some 32 ∨ (Ident t ∧ b "::" <+: s)) → Spells s ts → Spells (t ++ s) (t :: ts)

/-- `A::…`, `::…`, `A<…>::…` -/
def Qualified (q : List Str) : Prop :=
  ∃ q1 q2, q = q1 ++ b "::" :: q2 ∧
    (q1 = [] ∨ (∃ t, Ident t ∧ q1 = [t]) ∨ (∃ t a, Ident t ∧ angleDepth a = 0 ∧ q1 = t :: b "<" :: (a ++ [b ">"])))

/-- The same type, except that `typename` may have been put in front of a qualified name, and has been if the type
is one and the word was not there. -/
def SameType (ty out : List Str) : Prop :=
  (out = ty ∨ ∃ c q, (c = [] ∨ c = [b "const"]) ∧ ty = c ++ q ∧ out = c ++ b "typename" :: q ∧ Qualified q) ∧
  ∀ c q, (c = [] ∨ c = [b "const"]) → ty = c ++ q → Qualified q → b "typename" ∈ out

inductive What
  | member (quals : List Str)
  | static
  | ctor

/-- A pointer to declare. -/
structure Want where
  name : Str
  number : Nat
  ret : List Str
  args : List Str
  what : What

/-- The name of its variable. -/
def Want.var (w : Want) : Str := b "TmpMemPtr_" ++ w.name ++ dec w.number

/-- The text declares the pointer, `P` being the name of the class followed by `::`. -/
def Want.Is (P : Str) (w : Want) (text : Str) : Prop :=
  ∃ a, Spells a w.args ∧
    match w.what with
    | .ctor => text = b "void (*" ++ w.var ++ b ")(" ++ a ++ b ")=0;"
    | .static => ∃ r out, Spells r out ∧ SameType w.ret out ∧
        text = r ++ b "(*" ++ w.var ++ b ")(" ++ a ++ b ")=&" ++ P ++ w.name ++ b ";"
    | .member quals => ∃ r out, Spells r out ∧ SameType w.ret out ∧
        text = r ++ b "(" ++ P ++ b "*" ++ w.var ++ b ")(" ++ a ++ b ")" ++ quals.flatMap (32 :: ·) ++ b "=&" ++ P ++
          w.name ++ b ";"

/-- For examples. -/
def words (l : List String) : List Str := l.map b

inductive All2 {α β} (R : α → β → Prop) : List α → List β → Prop
  | nil : All2 R [] []
  | cons {a b l m} : R a b → All2 R l m → All2 R (a :: l) (b :: m)

/-! ### Classes -/

structure Param where
  ty : List Str
  dflt : Option (List Str)

def Param.toks (p : Param) : List Str := p.ty ++ (match p.dflt with | none => [] | some d => b "=" :: d)

def commas : List (List Str) → List Str
  | [] => []
  | [p] => p
  | p :: ps => p ++ b "," :: commas ps

def argToks (ps : List Param) : List Str :=
  if ps = [] then [b "()"] else b "(" :: (commas (ps.map Param.toks) ++ [b ")"])

def bodyToks : Option (List Str) → List Str
  | none => [b ";"]
  | some v => b "{" :: (v ++ [b "}"])

structure Fn where
  /-- what is in front of the name, the return type `ret` and `virtual`, `static`, `inline` -/
  spec : List Str
  ret : List Str
  static : Bool
  dtor : Bool
  name : Str
  params : List Param
  /-- qualifiers of the object -/
  quals : List Str
  /-- other tokens after the arguments, as `override`, `=0` -/
  post : List Str
  body : Option (List Str)

def Fn.toks (f : Fn) : List Str :=
  f.spec ++ ((if f.dtor = true then [b "~"] else []) ++ f.name :: (argToks f.params ++ (f.quals ++ (f.post ++ bodyToks f.body))))

inductive Item
  | fn (f : Fn)
  | label (kw : Str)
  | data (spec ret : List Str) (static : Bool) (name : Str) (init : Option (List Str))

def Item.toks : Item → List Str
  | .fn f => f.toks
  | .label kw => [kw, b ":"]
  | .data spec _ _ name none => spec ++ [name, b ";"]
  | .data spec _ _ name (some v) => spec ++ name :: b "=" :: (v ++ [b ";"])

/-- Is a pointer to be declared for the function? -/
def Fn.Registered (f : Fn) : Prop :=
  f.dtor = false ∧ b "delete" ∉ f.post ∧ f.name ≠ b "CLASSDESC_ACCESS" ∧ f.name ≠ b "CLASSDESC_ACCESS_TEMPLATE"

instance (f : Fn) : Decidable f.Registered := by unfold Fn.Registered; infer_instance

def Fn.want (f : Fn) (cls : Str) (n : Nat) : Want :=
  ⟨f.name, n, f.ret, commas (f.params.map Param.ty),
    if f.name = cls then .ctor else if f.static = true then .static else .member f.quals⟩

/-- The pointers to declare: for each function that is not hidden, numbered among the functions of the same name. -/
def wants (cls : Str) (respect : Bool) : Bool → List Str → List Item → List Want
  | _, _, [] => []
  | hidden, seen, .fn f :: l =>
    (if f.Registered ∧ hidden = false then [f.want cls (seen.count f.name + 1)] else []) ++
      wants cls respect hidden (seen ++ [f.name]) l
  | _, seen, .label kw :: l => wants cls respect (respect && (kw != b "public")) seen l
  | hidden, seen, .data .. :: l => wants cls respect hidden seen l

/-! ### The classes considered -/

/-- A token without white space, in which `::` and `typename` are not part of something longer. -/
structure Tokn (t : Str) : Prop where
  ne : t ≠ []
  clean : ∀ c ∈ t, isSpace c = false
  colons : t = b "::" ∨ ¬ b "::" <:+: t
  typen : t = b "typename" ∨ ¬ b "typename" <:+: t

/-- A word or operator of a type. -/
structure Word (t : Str) : Prop extends Tokn t where
  kw : t ∉ other ++ [b "private", b "protected", b "public", b "virtual", b "static", b "inline", b "~"]
  head : t = b "::" ∨ ∃ c r, t = c :: r ∧ c ∉ 0 :: b "{;,:=([<})"

/-- The tokens in front of the name, and the return type. -/
inductive Pre : List Str → List Str → Bool → Prop
  | nil : Pre [] [] false
  | drop {t l r s} : t = b "virtual" ∨ t = b "inline" → Pre l r s → Pre (t :: l) r s
  | static {l r s} : Pre l r s → Pre (b "static" :: l) r true
  | word {t l r s} : Word t → Pre l r s → Pre (t :: l) (t :: r) s
  | angle {t a l r s} : Word t → (∀ x ∈ a, Tokn x) → angleDepth a = 0 → (∀ k, 0 ≤ angleDepth (a.take k)) → b ">>" ∉ a →
      Pre l r s → Pre (t :: b "<" :: (a ++ b ">" :: l)) (t :: b "<" :: (a ++ b ">" :: r)) s

/-- `typename` has a place to go, if it is wanted. -/
def Typed (r : List Str) : Prop :=
  r.getLast? ≠ some (b "typename") ∧
  (b "::" ∉ r ∨ b "typename" ∈ r ∨ (r.head? ≠ some (b "const") ∧ Qualified r) ∨ ∃ q, r = b "const" :: q ∧ Qualified q)

/-- Default arguments whose commas are all within braces; `n` braces are open. -/
def Default : Nat → List Str → Prop
  | n, [] => n = 0
  | n, t :: l =>
    if t = b "{" then Default (n + 1) l
    else if t = b "}" then 0 < n ∧ Default (n - 1) l
    else if t = b "," then 0 < n ∧ Default n l
    else (∀ c ∈ t, c ∉ b ",{}") ∧ Default n l

structure Param.Ok (p : Param) : Prop where
  ne : p.ty ≠ []
  clean : ∀ t ∈ p.ty, t ≠ [] ∧ ∀ c ∈ t, c ∉ 32 :: b "={}"
  bal : Balanced (b "(") (b ")") p.ty
  dflt : ∀ d, p.dflt = some d → Default 0 d ∧ Balanced (b "(") (b ")") d

/-- The first argument begins with an identifier, not followed by `(`. -/
def FirstOk (p : Param) : Prop :=
  ∃ t r, p.ty = t :: r ∧ Ident t ∧ r.head? ∉ [some (b "("), some (b "()")] ∧
    (r.head? = some (b "::") → ∃ u q, r = b "::" :: u :: q ∧ u ∉ [b "*", b "(", b ")", b "()"])

structure Fn.Ok (f : Fn) : Prop where
  spec : Pre f.spec f.ret f.static
  typed : Typed f.ret
  name : Word f.name ∧ identStart f.name = true
  params : ∀ p ∈ f.params, p.Ok
  first : ∀ p, f.params.head? = some p → FirstOk p
  quals : f.quals = [] ∨ f.quals = [b "const"]
  stat : f.static = true → f.quals = []
  post : ∀ t ∈ f.post, starts ";{" t = false ∧ t ≠ b "const"
  body : ∀ v, f.body = some v → Balanced (b "{") (b "}") v

def Item.Ok : Item → Prop
  | .fn f => f.Ok
  | .label kw => kw ∈ [b "private", b "protected", b "public"]
  | .data spec ret static name init => Pre spec ret static ∧ Word name ∧ identStart name = true ∧
      ∀ v, init = some v → ∀ t ∈ v, starts ";," t = false

/-- The class: scopes, name and template arguments. -/
structure Class where
  scope : Str
  name : Str
  targs : Str

def Class.pre (c : Class) : Str := c.scope ++ c.name ++ c.targs ++ b "::"

/-- A template is one whose functions do not mention its name. -/
structure Class.Ok (c : Class) (l : List Item) : Prop where
  scope : c.scope = [] ∨ ∃ q, c.scope = q ++ b "::"
  scope' : 60 ∉ c.scope
  name : Ident c.name
  targs : c.targs = [] ∨ (c.targs.head? = some 60 ∧
    ∀ f, .fn f ∈ l → ∀ t ∈ f.ret ++ commas (f.params.map Param.ty), ¬ c.name <:+: t)

end C81

open C81

/-! ### Searching -/

private theorem infix_split {p x y : Str} (h : p <:+: x ++ y) (hy : y = [] ∨ ∃ c z, y = c :: z ∧ c ∉ p) :
    p <:+: x ∨ p <:+: y := by
  rcases hy with rfl | ⟨c, z, rfl, hc⟩
  · left; simpa using h
  · obtain ⟨u, v, e⟩ := h
    rw [List.append_assoc, List.append_eq_append_iff] at e
    rcases e with ⟨w, e1, e2⟩ | ⟨w, e1, e2⟩
    · rw [List.append_eq_append_iff] at e2
      rcases e2 with ⟨w', e3, e4⟩ | ⟨w', e3, e4⟩
      · left; exact ⟨u, w', by rw [e1, e3]; simp⟩
      · cases w' with
        | nil => left; exact ⟨u, [], by rw [e1]; simp at e3; rw [e3]; simp⟩
        | cons d w' =>
          simp at e4
          exact absurd (by rw [e3, e4.1]; simp) hc
    · right; exact ⟨w, v, by rw [e2]; simp⟩

private theorem findIn_none {p : Str} (hp : p ≠ []) : ∀ {t : Str}, ¬ p <:+: t → findIn p t = none := by
  intro t
  induction t with
  | nil => intro _; simp [findIn, hp]
  | cons c r ih =>
    intro h
    rw [findIn, if_neg, ih]
    · rfl
    · intro hr; exact h (hr.trans (List.suffix_cons c r).isInfix)
    · intro hr; exact h (List.isPrefixOf_iff_prefix.1 hr).isInfix

private theorem findIn_some {p : Str} : ∀ {t : Str}, p <:+: t → findIn p t ≠ none := by
  intro t
  induction t with
  | nil => intro h; simp at h; simp [findIn, h]
  | cons c r ih =>
    intro h
    rw [findIn]
    split
    · simp
    · rename_i hn
      rcases List.infix_cons_iff.1 h with h | h
      · exact absurd (List.isPrefixOf_iff_prefix.2 h) hn
      · have := ih h
        simpa using this

private theorem findIn_zero {p t : Str} (hp : p ≠ []) : findIn p t = some 0 ↔ p <+: t := by
  cases t with
  | nil => simp [findIn, hp]
  | cons c r =>
    rw [findIn]
    split
    · rename_i h; simp [List.isPrefixOf_iff_prefix.1 h]
    · rename_i h
      constructor
      · intro e; simp at e
      · intro e; exact absurd (List.isPrefixOf_iff_prefix.2 e) h

/-! ### Spaced text -/

private def Clean (t : Str) : Prop := t ≠ [] ∧ ∀ c ∈ t, isSpace c = false

private inductive Spaced : Str → List Str → Prop
  | nil : Spaced [] []
  | space {s ts} : Spaced s ts → Spaced (32 :: s) ts
  | tok {t s ts} : Clean t → (s = [] ∨ s.head? = some 32) → Spaced s ts → Spaced (t ++ s) (t :: ts)

private theorem Spaced.inv {s ts} (h : Spaced s ts) : (s = [] ∧ ts = []) ∨ (∃ s', s = 32 :: s' ∧ Spaced s' ts) ∨
    ∃ t s' ts', s = t ++ s' ∧ ts = t :: ts' ∧ Clean t ∧ (s' = [] ∨ s'.head? = some 32) ∧ Spaced s' ts' := by
  cases h with
  | nil => exact .inl ⟨rfl, rfl⟩
  | space h => exact .inr (.inl ⟨_, rfl, h⟩)
  | tok hc hs h => exact .inr (.inr ⟨_, _, _, rfl, rfl, hc, hs, h⟩)

private theorem Spaced.spells {s ts} (h : Spaced s ts) : Spells s ts := by
  induction h with
  | nil => exact .nil
  | space _ ih => exact .space ih
  | tok hc hs _ ih => exact .tok hc.1 (hs.elim .inl fun h => .inr (.inl h)) ih

private theorem Spaced.append {x y R S} (hx : Spaced x R) (hy : Spaced y S) (h : y = [] ∨ y.head? = some 32) :
    Spaced (x ++ y) (R ++ S) := by
  induction hx with
  | nil => exact hy
  | space _ ih => exact .space ih
  | @tok t s ts hc hs _ ih =>
    rw [List.append_assoc, List.cons_append]
    refine .tok hc ?_ ih
    rcases hs with rfl | hs
    · simpa using h
    · right
      cases s with
      | nil => simp at hs
      | cons c s => simpa using hs

private theorem Spaced.one {t : Str} (h : Clean t) : Spaced (32 :: t) [t] := by
  have := Spaced.tok h (.inl rfl) .nil
  rw [List.append_nil] at this
  exact .space this

private theorem join_cons (t : Str) (ts : List Str) : join (t :: ts) = t ++ 32 :: join ts := by
  simp [join, Scan.sp]

private theorem join_append (x y : List Str) : join (x ++ y) = join x ++ join y := by
  simp [join]

private theorem Spaced.join : ∀ {ts : List Str}, (∀ t ∈ ts, Clean t) → Spaced (join ts) ts := by
  intro ts
  induction ts with
  | nil => intro _; exact .nil
  | cons t ts ih =>
    intro h
    rw [join_cons]
    exact .tok (h t (by simp)) (.inr rfl) (.space (ih fun x hx => h x (by simp [hx])))

private theorem spells_join : ∀ {ts : List Str}, (∀ t ∈ ts, t ≠ []) → Spells (join ts) ts := by
  intro ts
  induction ts with
  | nil => intro _; exact .nil
  | cons t ts ih =>
    intro h
    rw [join_cons]
    exact .tok (h t (by simp)) (.inr (.inl rfl)) (.space (ih fun x hx => h x (by simp [hx])))

private theorem Spaced.infix {s ts} (h : Spaced s ts) {p : Str} (hp : p ≠ []) (h32 : 32 ∉ p) (hi : p <:+: s) :
    ∃ t ∈ ts, p <:+: t := by
  induction h with
  | nil => simp at hi; exact absurd hi hp
  | @space s ts _ ih =>
    rcases List.infix_cons_iff.1 hi with h | h
    · obtain ⟨v, e⟩ := h
      cases p with
      | nil => exact absurd rfl hp
      | cons c p => simp at e; exact absurd (by simp [e.1]) h32
    · exact ih h
  | @tok t s ts hc hs _ ih =>
    have := infix_split hi (hs.elim .inl fun h => .inr (by
      cases s with
      | nil => simp at h
      | cons c s => simp at h; exact ⟨c, s, rfl, by rw [h]; exact h32⟩))
    rcases this with h | h
    · exact ⟨t, by simp, h⟩
    · obtain ⟨x, hx, h'⟩ := ih h
      exact ⟨x, by simp [hx], h'⟩

private theorem spells_infix {s ts} (h : Spells s ts) {p : Str} (hp : Ident p) (hi : p <:+: s) :
    ∃ t ∈ ts, p <:+: t := by
  have hne : p ≠ [] := by obtain ⟨c, r, rfl, _⟩ := hp; simp
  have hch : ∀ c ∈ p, idChar c = true := by
    obtain ⟨c, r, rfl, h1, h2⟩ := hp
    intro d hd
    rcases List.mem_cons.1 hd with rfl | hd
    · simp [idChar, h1]
    · exact h2 d hd
  have h32 : 32 ∉ p := fun h => absurd (hch _ h) (by decide)
  have h58 : 58 ∉ p := fun h => absurd (hch _ h) (by decide)
  induction h with
  | nil => simp at hi; exact absurd hi hne
  | @space s ts _ ih =>
    rcases List.infix_cons_iff.1 hi with h | h
    · obtain ⟨v, e⟩ := h
      cases p with
      | nil => exact absurd rfl hne
      | cons c p => simp at e; exact absurd (by simp [e.1]) h32
    · exact ih h
  | @tok t s ts hc hs _ ih =>
    have : s = [] ∨ ∃ c z, s = c :: z ∧ c ∉ p := by
      rcases hs with hs | hs | ⟨_, v, hs⟩
      · exact .inl hs
      · cases s with
        | nil => simp at hs
        | cons c s => simp at hs; exact .inr ⟨c, s, rfl, by rw [hs]; exact h32⟩
      · exact .inr ⟨58, 58 :: v, by rw [← hs]; rfl, h58⟩
    rcases infix_split hi this with h | h
    · exact ⟨t, by simp, h⟩
    · obtain ⟨x, hx, h'⟩ := ih h
      exact ⟨x, by simp [hx], h'⟩

private theorem Spaced.contains {s ts} (h : Spaced s ts) {p : Str} (hp : p ∈ ts) : p <:+: s := by
  induction h with
  | nil => simp at hp
  | @space s ts _ ih => exact (ih hp).trans (List.suffix_cons _ _).isInfix
  | @tok t s ts hc hs _ ih =>
    rcases List.mem_cons.1 hp with rfl | hp
    · exact (List.prefix_append _ _).isInfix
    · exact (ih hp).trans (List.suffix_append _ _).isInfix

private theorem Spaced.followed {s ts} (h : Spaced s ts) {p : Str} (hp : p ∈ ts) (hl : ts.getLast? ≠ some p) :
    p ++ [32] <:+: s := by
  induction h with
  | nil => simp at hp
  | @space s ts _ ih => exact (ih hp hl).trans (List.suffix_cons _ _).isInfix
  | @tok t s ts hc hs hss ih =>
    rcases List.mem_cons.1 hp with rfl | hp
    · rcases hs with rfl | hs
      · rcases hss.inv with ⟨_, rfl⟩ | ⟨_, e, _⟩ | ⟨t, _, _, e, _, hc, _⟩
        · simp at hl
        · cases e
        · exact absurd (List.append_eq_nil_iff.1 e.symm).1 hc.1
      · cases s with
        | nil => simp at hs
        | cons c s =>
          simp at hs; subst hs
          exact ⟨[], s, by simp⟩
    · refine (ih hp ?_).trans (List.suffix_append _ _).isInfix
      intro e
      cases ts with
      | nil => simp at hp
      | cons x ts => rw [List.getLast?_cons_cons] at hl; exact hl e

/-! ### The return type -/

/-- What `returnType` holds: nothing, or a space and text that begins and ends with tokens. -/
private def RetText (A : Str) (R : List Str) : Prop :=
  (A = [] ∧ R = []) ∨ ∃ t s R', A = 32 :: (t ++ s) ∧ R = t :: R' ∧ Clean t ∧ (s = [] ∨ s.head? = some 32) ∧ Spaced s R' ∧
    ∀ c ∈ A.getLast?, isSpace c = false

private theorem RetText.spaced {A R} (h : RetText A R) : Spaced A R := by
  rcases h with ⟨rfl, rfl⟩ | ⟨t, s, R', rfl, rfl, hc, hs, h, _⟩
  · exact .nil
  · exact .space (.tok hc hs h)

private theorem RetText.append {A R x S} (h : RetText A R) (hx : Spaced (32 :: x) S) (hxn : x.head?.any (isSpace ·) = false)
    (hne : S ≠ []) (hl : ∀ c ∈ (32 :: x).getLast?, isSpace c = false) : RetText (A ++ 32 :: x) (R ++ S) := by
  rcases h with ⟨rfl, rfl⟩ | ⟨t, s, R', rfl, rfl, hc, hs, h, hl'⟩
  · rcases hx.inv with ⟨e, _⟩ | ⟨s', e, hx⟩ | ⟨t, s, ts, e, _, hc, hs, h⟩
    · cases e
    · simp at e; subst e
      rcases hx.inv with ⟨_, e⟩ | ⟨s', rfl, _⟩ | ⟨t, s, ts, rfl, rfl, hc, hs, h⟩
      · exact absurd e hne
      · simp [isSpace] at hxn
      · exact .inr ⟨t, s, ts, by simp, by simp, hc, hs, h, by simpa using hl⟩
    · obtain ⟨t1, t2⟩ := hc
      cases t with
      | nil => exact absurd rfl t1
      | cons c t => simp at e; have := t2 c (by simp); rw [← e.1] at this; exact absurd this (by decide)
  · refine .inr ⟨t, s ++ 32 :: x, R' ++ S, by simp, by simp, hc, ?_, h.append hx (.inr rfl), ?_⟩
    · rcases hs with rfl | hs
      · right; rfl
      · right
        cases s with
        | nil => simp at hs
        | cons c s => simpa using hs
    · intro c hc'
      apply hl c
      rw [← List.cons_append, List.getLast?_append] at hc'
      have : ∃ z, (32 :: x : Str).getLast? = some z := ⟨_, List.getLast?_eq_some_getLast (by simp)⟩
      obtain ⟨z, hz⟩ := this
      rw [hz] at hc' ⊢
      simpa using hc'

private theorem Spaced.chars {s ts} (h : Spaced s ts) : ∀ c ∈ s, c = 32 ∨ isSpace c = false := by
  induction h with
  | nil => simp
  | space _ ih => intro c hc; rcases List.mem_cons.1 hc with h | h; exact .inl h; exact ih c h
  | tok hc _ _ ih =>
    intro c h
    rcases List.mem_append.1 h with h | h
    · exact .inr (hc.2 c h)
    · exact ih c h

private theorem clean_const : Clean (b "const") := ⟨by decide, by decide⟩
private theorem clean_typename : Clean (b "typename") := ⟨by decide, by decide⟩

private theorem insert_spec {A R} (h : RetText A R) (hR : ∀ t ∈ R, Tokn t) (ht : Typed R) :
    ∃ out, Spells (insertTypename A) out ∧ SameType R out := by
  have hmap : (A.map fun c => if isSpace c = true then 32 else c) = A := by
    have := h.spaced.chars
    conv => rhs; rw [← List.map_id A]
    apply List.map_congr_left
    intro c hc
    rcases this c hc with h | h
    · subst h; rfl
    · simp [h]
  simp only [insertTypename, hmap]
  by_cases hcol : b "::" ∈ R
  · have f1 : findIn (b "::") A ≠ none := findIn_some (h.spaced.contains hcol)
    by_cases hty : b "typename" ∈ R
    · have f2 : findIn (b "typename ") A ≠ none := by
        have := h.spaced.followed hty ht.1
        exact findIn_some this
      rw [if_pos (.inr f2)]
      exact ⟨R, h.spaced.spells, .inl rfl, fun _ _ _ _ _ => hty⟩
    · have f2 : findIn (b "typename ") A = none := by
        apply findIn_none (by decide)
        intro hi
        have e : b "typename " = b "typename" ++ [32] := by decide
        rw [e] at hi
        have hi' : b "typename" <:+: A := (List.prefix_append _ _).isInfix.trans hi
        obtain ⟨t, ht, hi⟩ := h.spaced.infix (by decide) (by decide) hi'
        rcases (hR t ht).typen with rfl | hn
        · exact hty ht
        · exact hn hi
      rw [if_neg (by simp [f1, f2])]
      rcases h with ⟨rfl, rfl⟩ | ⟨t, s, R', rfl, rfl, hc, hs, hsp, hl⟩
      · simp at hcol
      have htrim : trimWS (32 :: (t ++ s)) = t ++ s := by
        have := Scan.C44_trim [32] (t ++ s) [] (by simp [isSpace]) (by simp)
          (by
            obtain ⟨c, t', rfl⟩ := List.exists_cons_of_ne_nil hc.1
            intro x hx; simp at hx; subst hx; exact hc.2 _ (by simp))
          (by
            intro x hx
            apply hl x
            have hne : t ++ s ≠ [] := by simp [hc.1]
            rw [Option.mem_def] at hx ⊢
            rw [List.getLast?_cons, hx]; rfl)
        simpa using this
      rw [htrim]
      have hpre : b "const " <+: t ++ s ↔ t = b "const" ∧ s ≠ [] := by
        have e : b "const " = b "const" ++ [32] := by decide
        rw [e]
        constructor
        · rintro ⟨v, hv⟩
          rw [List.append_assoc, List.append_eq_append_iff] at hv
          rcases hv with ⟨w, e1, e2⟩ | ⟨w, e1, e2⟩
          · cases w with
            | nil => simp at e1 e2; refine ⟨e1, ?_⟩; rw [← e2]; simp
            | cons c w =>
              simp at e2
              have := hc.2 c (by rw [e1]; simp)
              rw [← e2.1] at this; exact absurd this (by decide)
          · cases w with
            | nil => simp at e1 e2; refine ⟨e1.symm, ?_⟩; rw [e2]; simp
            | cons c w =>
              rcases hs with rfl | hs
              · simp at e2
              · rw [e2] at hs
                simp at hs
                subst hs
                have : (32 : UInt8) ∈ b "const" := by rw [e1]; simp
                exact absurd this (by decide)
        · rintro ⟨rfl, hne⟩
          obtain ⟨c, s', rfl⟩ := List.exists_cons_of_ne_nil hne
          simp at hs; subst hs
          exact ⟨s', by simp⟩
      have case2 : t ≠ b "const" → Qualified (t :: R') → ∃ out, Spells (if findIn (b "const ") (t ++ s) = some 0 then
          b "const typename " ++ (t ++ s).drop 6 else b "typename " ++ (t ++ s)) out ∧ SameType (t :: R') out := by
        intro hq1 hq2
        rw [if_neg (by rw [findIn_zero (by decide), hpre]; exact fun x => hq1 x.1)]
        refine ⟨b "typename" :: t :: R', ?_, .inr ⟨[], _, .inl rfl, rfl, rfl, hq2⟩, by simp⟩
        have e : b "typename " = b "typename" ++ [32] := by decide
        rw [e, List.append_assoc]
        exact (Spaced.tok clean_typename (.inr rfl) (.space (.tok hc hs hsp))).spells
      rcases ht.2 with h1 | h1 | ⟨h1, h2⟩ | ⟨q, h1, h2⟩
      · exact absurd hcol h1
      · exact absurd h1 hty
      · exact case2 (by simpa using h1) h2
      · simp at h1
        obtain ⟨rfl, rfl⟩ := h1
        have hsne : s ≠ [] := by
          rintro rfl
          rcases hsp.inv with ⟨_, rfl⟩ | ⟨_, e, _⟩ | ⟨t, _, _, e, _, hc, _⟩
          · obtain ⟨q1, q2, e, _⟩ := h2; simp at e
          · cases e
          · exact absurd (List.append_eq_nil_iff.1 e.symm).1 hc.1
        rw [if_pos (by rw [findIn_zero (by decide), hpre]; exact ⟨rfl, hsne⟩)]
        obtain ⟨c, s', rfl⟩ := List.exists_cons_of_ne_nil hsne
        simp at hs; subst hs
        refine ⟨b "const" :: b "typename" :: R', ?_, .inr ⟨[b "const"], R', .inr rfl, rfl, rfl, h2⟩, by simp⟩
        have e : b "const typename " = b "const" ++ 32 :: (b "typename" ++ [32]) := by decide
        have e2 : (b "const" ++ 32 :: s').drop 6 = s' := by
          have : b "const" ++ 32 :: s' = (b "const" ++ [32]) ++ s' := by simp
          rw [this, List.drop_append_of_le_length (by decide)]
          rfl
        rw [e, e2]
        have hs' : Spaced s' R' := by
          rcases hsp.inv with ⟨e, _⟩ | ⟨_, e, h⟩ | ⟨t, _, _, e, _, hc, _⟩
          · cases e
          · simp at e; rw [e]; exact h
          · obtain ⟨c, t', rfl⟩ := List.exists_cons_of_ne_nil hc.1
            simp at e
            have := hc.2 c (by simp)
            rw [← e.1] at this; exact absurd this (by decide)
        have := Spaced.tok clean_const (s := 32 :: (b "typename" ++ 32 :: s')) (.inr rfl)
          (.space (.tok clean_typename (.inr rfl) (.space hs')))
        simpa using this.spells
  · have f1 : findIn (b "::") A = none := by
      apply findIn_none (by decide)
      intro hi
      obtain ⟨t, ht, hi⟩ := h.spaced.infix (by decide) (by decide) hi
      rcases (hR t ht).colons with rfl | hn
      · exact hcol ht
      · exact hn hi
    rw [if_pos (.inl f1)]
    refine ⟨R, h.spaced.spells, .inl rfl, ?_⟩
    rintro c q _ rfl ⟨q1, q2, rfl, _⟩
    exact absurd (by simp) hcol

/-! ### Default arguments -/

private def strips (st : Str × Int × Bool) (s : Str) : Str × Int × Bool := s.foldl stripStep st

private theorem strips_append (st) (x y : Str) : strips st (x ++ y) = strips (strips st x) y := by
  simp [strips]

private theorem strips_kept (x : Str) : ∀ {t : Str}, (∀ c ∈ t, c ∉ b "={}") → strips (x, 0, true) t = (x ++ t, 0, true) := by
  intro t
  induction t generalizing x with
  | nil => intro _; simp [strips]
  | cons c t ih =>
    intro h
    have hc := h c (by simp)
    have e : b "={}" = [61, 123, 125] := by decide
    rw [e] at hc
    simp only [List.mem_cons, not_or, List.not_mem_nil, not_false_eq_true, and_true] at hc
    have : stripStep (x, 0, true) c = (x ++ [c], 0, true) := by
      simp [stripStep, hc]
    have ih := ih (x ++ [c]) fun d hd => h d (by simp [hd])
    simp only [strips, List.foldl_cons, this]
    simp only [strips] at ih
    rw [ih]; simp

private theorem strips_dropped (x : Str) (n : Int) : ∀ {t : Str}, (∀ c ∈ t, c ∉ b ",{}") →
    strips (x, n, false) t = (x, n, false) := by
  intro t
  induction t with
  | nil => intro _; simp [strips]
  | cons c t ih =>
    intro h
    have hc := h c (by simp)
    have e : b ",{}" = [44, 123, 125] := by decide
    rw [e] at hc
    simp only [List.mem_cons, not_or, List.not_mem_nil, not_false_eq_true, and_true] at hc
    have : stripStep (x, n, false) c = (x, n, false) := by
      simp [stripStep, hc]
    simp only [strips, List.foldl_cons, this]
    exact ih fun d hd => h d (by simp [hd])

private theorem strips_default (x : Str) : ∀ {d : List Str} {n : Nat}, Default n d →
    strips (x, (n : Int), false) (join d) = (x, 0, false) := by
  intro d
  induction d with
  | nil => intro n h; simp [Default] at h; subst h; simp [strips, join]
  | cons t d ih =>
    intro n h
    rw [join_cons, strips_append]
    have sp : ∀ m : Int, strips (x, m, false) (32 :: join d) = strips (x, m, false) (join d) := by
      intro m
      show strips (x, m, false) ([32] ++ join d) = _
      rw [strips_append, strips_dropped x m (by decide)]
    rw [Default] at h
    split at h
    · rename_i e; subst e
      have : strips (x, (n : Int), false) (b "{") = (x, ((n + 1 : Nat) : Int), false) := by
        have e : b "{" = [123] := by decide
        rw [e]; simp [strips, stripStep]
      rw [this, sp]; exact ih h
    · split at h
      · rename_i e; subst e
        have : strips (x, (n : Int), false) (b "}") = (x, ((n - 1 : Nat) : Int), false) := by
          have e : b "}" = [125] := by decide
          rw [e]; simp [strips, stripStep]; omega
        rw [this, sp]; exact ih h.2
      · split at h
        · rename_i e; subst e
          have : strips (x, (n : Int), false) (b ",") = (x, (n : Int), false) := by
            have e : b "," = [44] := by decide
            rw [e]; simp [strips, stripStep]; omega
          rw [this, sp]; exact ih h.2
        · rw [strips_dropped x _ h.1, sp]; exact ih h.2

private def TyOk (p : Param) : Prop :=
  (∀ t ∈ p.ty, ∀ c ∈ t, c ∉ b "={}") ∧ ∀ d, p.dflt = some d → Default 0 d

private theorem join_chars {ts : List Str} {P : UInt8 → Prop} (h : ∀ t ∈ ts, ∀ c ∈ t, P c) (h32 : P 32) : ∀ c ∈ join ts, P c := by
  intro c hc
  simp only [join, List.mem_flatMap, Scan.sp, List.mem_append, List.mem_singleton] at hc
  obtain ⟨t, ht, hc | rfl⟩ := hc
  · exact h t ht c hc
  · exact h32

private theorem strips_param (x : Str) (p : Param) (h : TyOk p) :
    ∃ i, strips (x, 0, true) (join p.toks) = (x ++ join p.ty, 0, i) := by
  rw [Param.toks, join_append, strips_append, strips_kept x (join_chars h.1 (by decide))]
  cases hd : p.dflt with
  | none => exact ⟨true, by simp [join, strips]⟩
  | some d =>
    refine ⟨false, ?_⟩
    rw [join_cons, strips_append]
    have e : b "=" = [61] := by decide
    have : strips (x ++ join p.ty, 0, true) (b "=") = (x ++ join p.ty, 0, false) := by
      rw [e]; simp [strips, stripStep]
    rw [this]
    show strips _ ([32] ++ join d) = _
    rw [strips_append, strips_dropped _ _ (by decide)]
    exact strips_default _ (n := 0) (h.2 d hd)

private theorem strips_params : ∀ {ps : List Param} (x : Str), (∀ p ∈ ps, TyOk p) →
    ∃ i, strips (x, 0, true) (join (commas (ps.map Param.toks))) = (x ++ join (commas (ps.map Param.ty)), 0, i) := by
  intro ps
  induction ps with
  | nil => intro x _; exact ⟨true, by simp [commas, join, strips]⟩
  | cons p ps ih =>
    intro x h
    obtain ⟨i, hi⟩ := strips_param x p (h p (by simp))
    cases ps with
    | nil => exact ⟨i, by simpa [commas] using hi⟩
    | cons q ps =>
      simp only [List.map_cons, commas, join_append, join_cons]
      rw [strips_append, hi, strips_append]
      have e : b "," = [44] := by decide
      have h1 : ∀ i, strips (x ++ join p.ty, 0, i) (b ",") = (x ++ join p.ty ++ b ",", 0, true) := by
        intro i; rw [e]; simp [strips, stripStep]
      rw [h1]
      obtain ⟨j, hj⟩ := ih (x ++ join p.ty ++ b "," ++ [32]) fun r hr => h r (by simp [hr])
      refine ⟨j, ?_⟩
      show strips _ ([32] ++ join _) = _
      rw [strips_append, strips_kept _ (by decide)]
      simpa using hj

/-! ### Arguments -/

private theorem depth_append (l r : Str) (x y : List Str) : depth l r (x ++ y) = depth l r x + depth l r y := by
  induction x with
  | nil => simp [depth]
  | cons t x ih => simp only [List.cons_append, depth, ih]; omega

private theorem bal_append {l r : Str} {x y : List Str} (hx : Balanced l r x) (hy : Balanced l r y) :
    Balanced l r (x ++ y) := by
  constructor
  · intro k
    rw [List.take_append, depth_append]
    have := hx.1 k
    have := hy.1 (k - x.length)
    omega
  · rw [depth_append, hx.2, hy.2]; rfl

private theorem bal_cons {l r t : Str} {x : List Str} (h1 : t ≠ l) (h2 : t ≠ r) : Balanced l r (t :: x) ↔ Balanced l r x := by
  have hd : ∀ y, depth l r (t :: y) = depth l r y := by intro y; simp [depth, h1, h2]
  constructor
  · intro h
    refine ⟨fun k => ?_, by rw [← hd]; exact h.2⟩
    have := h.1 (k + 1)
    rwa [List.take_succ_cons, hd] at this
  · intro h
    refine ⟨fun k => ?_, by rw [hd]; exact h.2⟩
    cases k with
    | zero => simp [depth]
    | succ k => rw [List.take_succ_cons, hd]; exact h.1 k

private theorem bal_nil (l r : Str) : Balanced l r [] := ⟨fun k => by simp [depth], rfl⟩

private theorem bal_head {l r : Str} {t : Str} {x : List Str} (hlr : l ≠ r) (h : Balanced l r (t :: x)) : t ≠ r := by
  intro e
  subst e
  have := h.1 1
  simp [depth, Ne.symm hlr] at this

private theorem bal_commas {ps : List Param} (h : ∀ p ∈ ps, Balanced (b "(") (b ")") p.ty ∧
      ∀ d, p.dflt = some d → Balanced (b "(") (b ")") d) : Balanced (b "(") (b ")") (commas (ps.map Param.toks)) := by
  have one : ∀ p ∈ ps, Balanced (b "(") (b ")") p.toks := by
    intro p hp
    rw [Param.toks]
    apply bal_append (h p hp).1
    cases hd : p.dflt with
    | none => exact bal_nil _ _
    | some d => exact (bal_cons (by decide) (by decide)).2 ((h p hp).2 d hd)
  clear h
  induction ps with
  | nil => exact bal_nil _ _
  | cons p ps ih =>
    cases ps with
    | nil => exact one p (by simp)
    | cons q ps =>
      exact bal_append (one p (by simp)) ((bal_cons (by decide) (by decide)).2 (ih fun r hr => one r (by simp [hr])))

private theorem commas_shift (t : Str) (x : List Str) (l : List (List Str)) : commas ((t :: x) :: l) = t :: commas (x :: l) := by
  cases l <;> rfl

private theorem ident_start {t : Str} (h : Ident t) : identStart t = true := by
  obtain ⟨c, r, rfl, h, _⟩ := h
  exact h

private theorem ident_chars {t : Str} (h : Ident t) : t ≠ [] ∧ ∀ c ∈ t, idChar c = true := by
  obtain ⟨c, r, rfl, h1, h2⟩ := h
  refine ⟨by simp, ?_⟩
  intro d hd
  rcases List.mem_cons.1 hd with rfl | hd
  · simp [idChar, h1]
  · exact h2 d hd

private theorem ident_ne {t u : Str} (h : Ident t) (hu : identStart u = false) : t ≠ u := by
  rintro rfl
  rw [ident_start h] at hu; cases hu

private theorem gob_eq {i : Reader} {l r t : Str} {j : Reader} (h : gobble i l r = .done t j) : gob i l r = some (t, j) := by
  simp [gob, h]

private theorem join_eq_nil {ts : List Str} (h : join ts = []) : ts = [] := by
  cases ts with
  | nil => rfl
  | cons t ts => rw [join_cons] at h; simp at h

private theorem args_run (ps : List Param) (hps : ∀ p ∈ ps, p.Ok) (hf : ∀ p, ps.head? = some p → FirstOk p) (nm : Str) :
    ∃ o r, argToks ps = o :: r ∧ (o = b "(" ∨ o = b "()") ∧ ∀ k, ∃ text la tk, argText ⟨nm, o, r ++ k⟩ = some (text, ⟨la, tk, k⟩) ∧
      starts ";{" tk = false ∧ Spells (strip text) (commas (ps.map Param.ty)) := by
  cases ps with
  | nil =>
    refine ⟨b "()", [], rfl, .inr rfl, fun k => ⟨[], nm, b "()", ?_, by decide, .nil⟩⟩
    simp [argText]
  | cons p ps =>
    obtain ⟨t, r0, hty, hid, hr0, hcol⟩ := hf p rfl
    let p' : Param := ⟨r0, p.dflt⟩
    have hok := hps p (by simp)
    have htoks : commas ((p :: ps).map Param.toks) = t :: commas ((p' :: ps).map Param.toks) := by
      simp only [List.map_cons, Param.toks, hty, p', List.cons_append, commas_shift]
    have htys : commas ((p :: ps).map Param.ty) = t :: commas ((p' :: ps).map Param.ty) := by
      simp only [List.map_cons, hty, p', commas_shift]
    have hclean : ∀ q ∈ p' :: ps, ∀ t ∈ q.ty, t ≠ [] ∧ ∀ c ∈ t, c ∉ 32 :: b "={}" := by
      intro q hq
      rcases List.mem_cons.1 hq with rfl | hq
      · intro x hx; exact hok.clean x (by rw [hty]; simp [show x ∈ r0 from hx])
      · exact (hps q (by simp [hq])).clean
    have hTy : ∀ q ∈ p' :: ps, TyOk q := by
      intro q hq
      refine ⟨fun x hx c hc h => ((hclean q hq x hx).2 c hc) (by simp [h]), ?_⟩
      rcases List.mem_cons.1 hq with rfl | hq
      · intro d hd; exact (hok.dflt d hd).1
      · intro d hd; exact ((hps q (by simp [hq])).dflt d hd).1
    have hbal : Balanced (b "(") (b ")") (commas ((p' :: ps).map Param.toks)) := by
      apply bal_commas
      intro q hq
      rcases List.mem_cons.1 hq with rfl | hq
      · refine ⟨?_, fun d hd => (hok.dflt d hd).2⟩
        have := hok.bal
        rw [hty] at this
        exact (bal_cons (ident_ne hid (by decide)) (ident_ne hid (by decide))).1 this
      · exact ⟨(hps q (by simp [hq])).bal, fun d hd => ((hps q (by simp [hq])).dflt d hd).2⟩
    have hne : ∀ x ∈ commas ((p' :: ps).map Param.ty), x ≠ [] := by
      have : ∀ l : List Param, (∀ q ∈ l, ∀ t ∈ q.ty, t ≠ []) → ∀ x ∈ commas (l.map Param.ty), x ≠ [] := by
        intro l
        induction l with
        | nil => intro _ x hx; simp [commas] at hx
        | cons q l ih =>
          intro h x hx
          cases l with
          | nil => exact h q (by simp) x (by simpa [commas] using hx)
          | cons q' l =>
            simp only [List.map_cons, commas, List.mem_append, List.mem_cons] at hx
            rcases hx with hx | rfl | hx
            · exact h q (by simp) x hx
            · decide
            · exact ih (fun y hy => h y (by simp [hy])) x hx
      exact this _ fun q hq t ht => (hclean q hq t ht).1
    have hstr : ∀ x : Str, (∀ c ∈ x, c ∉ b "={}") → strip (t ++ (x ++ join (commas ((p' :: ps).map Param.toks)))) =
        t ++ (x ++ join (commas ((p' :: ps).map Param.ty))) := by
      intro x hx
      obtain ⟨i, hi⟩ := strips_params (t ++ x) hTy
      have h1 : strips ([], 0, true) t = (t, 0, true) := by
        have := strips_kept [] (t := t) (by
          intro c hc h
          have := (hok.clean t (by rw [hty]; simp)).2 c hc
          exact this (by simp [h]))
        simpa using this
      have : strip (t ++ (x ++ join (commas ((p' :: ps).map Param.toks)))) =
          (strips ([], 0, true) (t ++ (x ++ join (commas ((p' :: ps).map Param.toks))))).1 := rfl
      rw [this, strips_append, h1, strips_append, strips_kept t hx, hi]
      simp
    have hh : ∀ u, (commas ((p' :: ps).map Param.toks)).head? = some u → r0.head? = some u ∨ (u = b "=" ∨ u = b ",") := by
      intro u h
      cases hr : r0 with
      | nil =>
        right
        simp only [List.map_cons, p', Param.toks, hr, List.nil_append] at h
        cases hd : p.dflt with
        | none =>
          rw [hd] at h
          cases ps with
          | nil => simp [commas] at h
          | cons q ps => simp only [List.map_cons, commas, List.nil_append, List.head?_cons, Option.some.injEq] at h; exact .inr h.symm
        | some d =>
          rw [hd] at h
          cases ps with
          | nil => simp only [List.map_nil, commas, List.head?_cons, Option.some.injEq] at h; exact .inl h.symm
          | cons q ps => simp only [List.map_cons, commas, List.cons_append, List.head?_cons, Option.some.injEq] at h; exact .inl h.symm
      | cons x r =>
        left
        simp only [List.map_cons, p', Param.toks] at h
        rw [hr, List.cons_append, commas_shift] at h
        simpa using h
    have hhead : (commas ((p' :: ps).map Param.toks)).head? = some (b "::") → r0.head? = some (b "::") := by
      intro h
      rcases hh _ h with h | h
      · exact h
      · exact absurd h (by decide)
    have hhead2 : ∀ u, (commas ((p' :: ps).map Param.toks)).head? = some u → u ∉ [b "(", b "()"] := by
      intro u h
      rcases hh _ h with h | rfl | rfl
      · rw [h] at hr0; simpa using hr0
      · decide
      · decide
    refine ⟨b "(", commas ((p :: ps).map Param.toks) ++ [b ")"], by simp [argToks], .inl rfl, fun k => ?_⟩
    rw [htoks, htys]
    have hstart := ident_start hid
    generalize hR : commas ((p' :: ps).map Param.toks) = R at *
    generalize hS : commas ((p' :: ps).map Param.ty) = S at *
    cases R with
    | nil =>
      have hS0 : S = [] := by
        obtain ⟨i, hi⟩ := strips_params [] hTy
        rw [hR, hS] at hi
        simp [strips, join] at hi
        exact join_eq_nil (by simpa [join] using hi.1)
      subst hS0
      refine ⟨t, t, b ")", ?_, by decide, ?_⟩
      · simp only [argText, next, List.cons_append, List.nil_append]
        rw [if_neg (by decide)]
        simp only [Option.bind_eq_bind, Option.bind_some, hstart, if_true]
        rw [if_neg (by decide)]
        rw [if_neg (by rintro ⟨h, _⟩; exact absurd h (by decide)), if_neg (by decide)]
        rfl
      · have := hstr [] (by simp)
        simp only [List.nil_append, join, List.flatMap_nil, List.append_nil] at this
        rw [this]
        have := Spells.tok (ident_chars hid).1 (.inl rfl) .nil
        rwa [List.append_nil] at this
    | cons t2 R2 =>
      have ht2 := hhead2 t2 rfl
      simp at ht2
      have ht2' : t2 ≠ b ")" := bal_head (by decide) hbal
      by_cases hc : t2 = b "::"
      · subst hc
        obtain ⟨u, q, hru, hu⟩ := hcol (hhead rfl)
        simp only [List.mem_cons, not_or, List.not_mem_nil, not_false_eq_true, and_true] at hu
        have hRS : ∃ R3 S3, R2 = u :: R3 ∧ S = b "::" :: u :: S3 := by
          simp only [List.map_cons, p', Param.toks, hru, List.cons_append, commas_shift] at hR hS
          exact ⟨_, _, (List.cons.inj hR).2.symm, hS.symm⟩
        obtain ⟨R3, S3, rfl, rfl⟩ := hRS
        have hb3 : Balanced (b "(") (b ")") R3 := by
          have := (bal_cons (by decide) (by decide)).1 hbal
          exact (bal_cons hu.2.1 hu.2.2.1).1 this
        have hg := gob_eq (Scan.C45_gobble (left := b "(") (right := b ")") (by decide) (by decide) ⟨b "::", u, R3 ++ b ")" :: k⟩
          (show u ≠ b "(" ++ b ")" from hu.2.2.2) R3 k rfl hb3)
        refine ⟨t ++ ([] ++ join (b "::" :: u :: R3)), lastTok u R3, b ")", ?_, by decide, ?_⟩
        · simp only [argText, next, List.cons_append, List.nil_append, List.append_assoc]
          rw [if_neg (by decide)]
          simp only [Option.bind_eq_bind, Option.bind_some, hstart, if_true]
          rw [if_neg (by rintro ⟨h, _⟩; exact hu.1 h), if_pos hu.2.2.1, hg]
          simp [join, Scan.sp]
        · rw [hstr [] (by simp), List.nil_append]
          refine .tok (ident_chars hid).1 (.inr (.inr ⟨hid, ?_⟩)) (spells_join hne)
          rw [join_cons]; exact List.prefix_append _ _
      · have hb2 : Balanced (b "(") (b ")") R2 := (bal_cons ht2.1 ht2').1 hbal
        have hg := gob_eq (Scan.C45_gobble (left := b "(") (right := b ")") (by decide) (by decide) ⟨t, t2, R2 ++ b ")" :: k⟩
          (show t2 ≠ b "(" ++ b ")" from ht2.2) R2 k rfl hb2)
        refine ⟨t ++ ([32] ++ join (t2 :: R2)), lastTok t2 R2, b ")", ?_, by decide, ?_⟩
        · simp only [argText, next, List.cons_append, List.nil_append, List.append_assoc]
          rw [if_neg (by decide)]
          simp only [Option.bind_eq_bind, Option.bind_some, hstart, if_true]
          rw [if_neg hc]
          rw [if_neg (by
            rintro ⟨_, h | h⟩
            · exact ident_ne hid (by decide) h
            · exact ident_ne hid (by decide) h), if_pos ht2', hg]
          simp [join, Scan.sp]
        · rw [hstr [32] (by decide)]
          exact .tok (ident_chars hid).1 (.inr (.inl rfl)) (.space (spells_join hne))

/-! ### Turns -/

private abbrev clears (l : Str) : Prop := starts ":;{}()" l = true ∧ l ≠ b "::"

private def upd (ret l : Str) : Str :=
  if clears l then [] else if l ∉ [b "virtual", b "static", b "inline"] then ret ++ [32] ++ l else ret

private theorem collect_upd (ret : Str) (i : Reader) (h : i.tok ≠ b "<") : collect ret i = some (upd ret i.last, i) := by
  unfold collect upd clears
  rw [if_neg h]
  by_cases h1 : starts ":;{}()" i.last = true ∧ i.last ≠ b "::"
  · rw [if_pos h1, if_pos h1]
  · rw [if_neg h1, if_neg h1]
    by_cases h2 : i.last ∉ [b "virtual", b "static", b "inline"]
    · rw [if_pos h2, if_pos h2]
    · rw [if_neg h2, if_neg h2]

private def rd (l : Str) : List Str → Reader
  | [] => ⟨l, [], []⟩
  | t :: r => ⟨l, t, r⟩

private theorem next_rd (l t : Str) {k : List Str} (h : k ≠ []) : next ⟨l, t, k⟩ = some (rd t k) := by
  cases k with
  | nil => exact absurd rfl h
  | cons u k => rfl

private theorem rd_len (l : Str) {k : List Str} (h : k ≠ []) : (rd l k).rest.length + 1 = k.length := by
  cases k with
  | nil => exact absurd rfl h
  | cons u k => rfl

private structure Plain (t : Str) : Prop where
  kw : t ∉ other ++ [b "private", b "protected", b "public"]
  scalar : ¬ (starts "{;,:=" t = true ∧ t ≠ b "::")
  paren : t.head? ≠ some 40
  angle : t ≠ b "<"
  close : t ≠ b "}"

private theorem step_plain (o : Opts) (s : St) (bef l : Str) {t : Str} {k : List Str} (ht : Plain t) (hk : k ≠ []) :
    step o s bef ⟨l, t, k⟩ = some ({ s with static := s.static || t == b "static", ret := upd s.ret l }, l, rd t k) := by
  have hkw := ht.kw
  simp only [List.mem_append, not_or] at hkw
  have hbr : t ≠ b "{" := by rintro rfl; exact hkw.1 (by decide)
  unfold step
  rw [if_neg hkw.2, if_neg hkw.1]
  simp only [ht.scalar, ht.paren, if_false, Option.bind_eq_bind, Option.bind_some, hbr]
  rw [collect_upd _ _ ht.angle]
  simp only [Option.bind_some, next_rd l t hk]
  congr 2
  by_cases h : t = b "static"
  · simp [h]
  · simp [h]

private theorem word_plain {t : Str} (h : Word t) : Plain t ∧ t ≠ b "static" ∧ t ≠ b "~" ∧ ¬ clears t ∧
    t ∉ [b "virtual", b "static", b "inline"] := by
  have hkw := h.kw
  simp only [List.mem_append, not_or] at hkw
  have h2 : t ∉ [b "private", b "protected", b "public"] := fun hm => hkw.2 (by
    simp only [List.mem_cons, List.not_mem_nil, or_false] at hm ⊢
    rcases hm with h | h | h <;> simp [h])
  have h3 : t ∉ [b "virtual", b "static", b "inline"] := fun hm => hkw.2 (by
    simp only [List.mem_cons, List.not_mem_nil, or_false] at hm ⊢
    rcases hm with h | h | h <;> simp [h])
  have h4 : t ≠ b "~" := by rintro rfl; exact hkw.2 (by decide)
  have h5 : t ≠ b "static" := by rintro rfl; exact h3 (by decide)
  rcases h.head with rfl | ⟨c, r, rfl, hc⟩
  · exact ⟨⟨by decide, by decide, by decide, by decide, by decide⟩, by decide, by decide, by decide, by decide⟩
  · have e : b "{;,:=([<})" = [123, 59, 44, 58, 61, 40, 91, 60, 125, 41] := by decide
    rw [e] at hc
    simp only [List.mem_cons, not_or, List.not_mem_nil, not_false_eq_true, and_true] at hc
    refine ⟨⟨by simp only [List.mem_append, not_or]; exact ⟨hkw.1, h2⟩, ?_, ?_, ?_, ?_⟩, h5, h4, ?_, h3⟩
    · have e : b "{;,:=" = [123, 59, 44, 58, 61] := by decide
      simp [starts, e, hc]
    · simp [hc]
    · have e : b "<" = [60] := by decide
      rw [e]; simp [hc]
    · have e : b "}" = [125] := by decide
      rw [e]; simp [hc]
    · have e : b ":;{}()" = [58, 59, 123, 125, 40, 41] := by decide
      simp [clears, starts, e, hc]

private def Reach (o : Opts) (s : St) (bef : Str) (i : Reader) (s' : St) (bef' : Str) (i' : Reader) : Prop :=
  ∃ n, n + i'.rest.length ≤ i.rest.length ∧ ∀ f, loop o (n + f) s bef i = loop o f s' bef' i'

private theorem Reach.refl (o : Opts) (s : St) (bef : Str) (i : Reader) : Reach o s bef i s bef i :=
  ⟨0, by omega, fun f => by rw [Nat.zero_add]⟩

private theorem Reach.trans {o s bef i s' bef' i' s'' bef'' i''} (h : Reach o s bef i s' bef' i') (h' : Reach o s' bef' i' s'' bef'' i'') :
    Reach o s bef i s'' bef'' i'' := by
  obtain ⟨n, h1, h2⟩ := h
  obtain ⟨m, h3, h4⟩ := h'
  exact ⟨n + m, by omega, fun f => by rw [Nat.add_assoc, h2, h4]⟩

private theorem Reach.step {o s bef i s' bef' i'} (ht : i.tok ≠ b "}") (h : step o s bef i = some (s', bef', i'))
    (hl : i'.rest.length + 1 ≤ i.rest.length) : Reach o s bef i s' bef' i' := by
  refine ⟨1, by omega, fun f => ?_⟩
  rw [Nat.add_comm, loop, if_neg ht, h]

private theorem reach_plain (o : Opts) (s : St) (bef l : Str) {t : Str} {k : List Str} (ht : Plain t) (hk : k ≠ []) :
    Reach o s bef (rd l (t :: k)) { s with static := s.static || t == b "static", ret := upd s.ret l } l (rd t k) := by
  refine .step ht.close (step_plain o s bef l ht hk) ?_
  have := rd_len t hk
  show (rd t k).rest.length + 1 ≤ k.length
  omega

private theorem reach_angle (o : Opts) (s : St) (bef l : Str) {a k : List Str} (hd : angleDepth a = 0)
    (hk0 : ∀ k, 0 ≤ angleDepth (a.take k)) (hs : b ">>" ∉ a) (hk : k ≠ []) :
    ∃ bef', Reach o s bef (rd l (b "<" :: (a ++ b ">" :: k))) { s with ret := s.ret ++ [32] ++ (l ++ [32] ++ b "<" ++ [32] ++ join a) } bef'
      (rd (b ">") k) := by
  have hg := Scan.C45_angle_partial ⟨l, b "<", a ++ b ">" :: k⟩ (show b "<" ≠ [60] ++ [62] by decide) a (b ">") k rfl (.inl ⟨by decide, hd⟩) hk0
    (by intro x y h; exact absurd (by rw [h]; exact List.mem_append_right _ (by simp; left; decide)) hs)
  have hg' := gob_eq hg
  refine ⟨lastTok (b "<") a, .step (by show b "<" ≠ b "}"; decide) ?_ ?_⟩
  · show step o s bef ⟨l, b "<", a ++ b ">" :: k⟩ = _
    unfold step
    dsimp only
    rw [if_neg (by decide), if_neg (by decide)]
    rw [if_neg (by decide)]
    simp only [Option.bind_eq_bind, Option.bind_some]
    rw [if_neg (show b "<" ≠ b "static" by decide), if_neg (by show ¬ (b "<").head? = some 40; decide)]
    rw [if_neg (show b "<" ≠ b "{" by decide)]
    simp only [Option.bind_some, collect, if_true]
    have : gob ⟨l, b "<", a ++ b ">" :: k⟩ (b "<") (b ">") = _ := hg'
    rw [this]
    simp only [Option.map_some, Option.bind_some]
    rw [next_rd _ _ hk]
    simp only [Option.bind_some, Scan.sp]
    rw [if_neg (show b ">" ≠ [62, 62] by decide), List.append_nil]
  · have := rd_len (b ">") hk
    simp only [rd] at this ⊢
    simp only [List.length_append, List.length_cons]
    omega

private theorem upd_word {t : Str} (h : Word t) (A : Str) : upd A t = A ++ 32 :: t := by
  obtain ⟨_, _, _, h1, h2⟩ := word_plain h
  rw [upd, if_neg h1, if_pos h2]; simp

private theorem tokn_clean {t : Str} (h : Tokn t) : Clean t := ⟨h.ne, h.clean⟩

private theorem clean_last {t : Str} (h : Clean t) (x : Str) : ∀ c ∈ (x ++ t).getLast?, isSpace c = false := by
  intro c hc
  have : ∃ z, t.getLast? = some z := ⟨_, List.getLast?_eq_some_getLast h.1⟩
  obtain ⟨z, hz⟩ := this
  rw [List.getLast?_append, hz] at hc
  simp at hc
  subst hc
  exact h.2 z (List.mem_of_getLast? hz)

private theorem clean_head {t : Str} (h : Clean t) (x : Str) : (t ++ x).head?.any (isSpace ·) = false := by
  obtain ⟨c, t', rfl⟩ := List.exists_cons_of_ne_nil h.1
  simpa using h.2 c (by simp)

private theorem run_pre (o : Opts) {p R : List Str} {st : Bool} (h : Pre p R st) : ∀ (s : St) (bef l : Str) (Rs : List Str) (k : List Str),
    RetText (upd s.ret l) Rs → l ≠ b "~" → k ≠ [] →
    ∃ ret' bef' l', Reach o s bef (rd l (p ++ k)) { s with ret := ret', static := s.static || st } bef' (rd l' k) ∧
      RetText (upd ret' l') (Rs ++ R) ∧ l' ≠ b "~" := by
  induction h with
  | nil =>
    intro s bef l Rs k hr hl hk
    refine ⟨s.ret, bef, l, ?_, by simpa using hr, hl⟩
    simp only [Bool.or_false, List.nil_append]
    exact .refl ..
  | @drop t p r st ht _ ih =>
    intro s bef l Rs k hr hl hk
    have hp : Plain t ∧ t ≠ b "static" ∧ t ≠ b "~" ∧ upd (upd s.ret l) t = upd s.ret l := by
      rcases ht with rfl | rfl
      · refine ⟨⟨by decide, by decide, by decide, by decide, by decide⟩, by decide, by decide, ?_⟩
        rw [upd.eq_1 _ (b "virtual"), if_neg (by decide), if_neg (by decide)]
      · refine ⟨⟨by decide, by decide, by decide, by decide, by decide⟩, by decide, by decide, ?_⟩
        rw [upd.eq_1 _ (b "inline"), if_neg (by decide), if_neg (by decide)]
    obtain ⟨r', b', l', h1, h2, h3⟩ := ih { s with ret := upd s.ret l } l t Rs k (by simpa [hp.2.2.2] using hr) hp.2.2.1 hk
    refine ⟨r', b', l', Reach.trans (reach_plain o s bef l hp.1 (by simp [hk])) ?_, h2, h3⟩
    have e : (t == b "static") = false := by simpa using hp.2.1
    rw [e, Bool.or_false]
    exact h1
  | @static p r st _ ih =>
    intro s bef l Rs k hr hl hk
    have hp : Plain (b "static") := ⟨by decide, by decide, by decide, by decide, by decide⟩
    have hu : upd (upd s.ret l) (b "static") = upd s.ret l := by
      rw [upd.eq_1 _ (b "static"), if_neg (by decide), if_neg (by decide)]
    obtain ⟨r', b', l', h1, h2, h3⟩ := ih { s with static := true, ret := upd s.ret l } l (b "static") Rs k (by simpa [hu] using hr)
      (by decide) hk
    refine ⟨r', b', l', Reach.trans (reach_plain o s bef l hp (by simp [hk])) ?_, h2, h3⟩
    simp only [beq_self_eq_true, Bool.or_true]
    simp only [Bool.true_or] at h1
    exact h1
  | @word t p r st ht _ ih =>
    intro s bef l Rs k hr hl hk
    obtain ⟨hp, hs, h4, _⟩ := word_plain ht
    have hc := tokn_clean ht.toTokn
    obtain ⟨r', b', l', h1, h2, h3⟩ := ih { s with ret := upd s.ret l } l t (Rs ++ [t]) k
      (by
        simp only
        rw [upd_word ht]
        exact hr.append (Spaced.one hc) (by simpa using clean_head hc []) (by simp) (clean_last hc [32])) h4 hk
    refine ⟨r', b', l', Reach.trans (reach_plain o s bef l hp (by simp [hk])) ?_, by simpa using h2, h3⟩
    have e : (t == b "static") = false := by simpa using hs
    rw [e, Bool.or_false]
    exact h1
  | @angle t a p r st ht ha hd hk0 hsh _ ih =>
    intro s bef l Rs k hr hl hk
    obtain ⟨hp, hs, h4, _⟩ := word_plain ht
    have hc := tokn_clean ht.toTokn
    have e : (t == b "static") = false := by simpa using hs
    have r1 := reach_plain o s bef l hp (k := b "<" :: (a ++ b ">" :: (p ++ k))) (by simp)
    rw [e, Bool.or_false] at r1
    obtain ⟨b2, r2⟩ := reach_angle o { s with ret := upd s.ret l } l t hd hk0 hsh (k := p ++ k) (by simp [hk])
    have hlt : Clean (b "<") := ⟨by decide, by decide⟩
    have hgt : Clean (b ">") := ⟨by decide, by decide⟩
    have hu : ∀ A, upd A (b ">") = A ++ 32 :: b ">" := by
      intro A
      rw [upd, if_neg (by decide), if_pos (by decide)]; simp
    obtain ⟨r', b', l', h1, h2, h3⟩ := ih { s with ret := upd s.ret l ++ [32] ++ (t ++ [32] ++ b "<" ++ [32] ++ join a) } b2 (b ">")
      (Rs ++ ([t] ++ ([b "<"] ++ (a ++ [b ">"])))) k
      (by
        simp only
        rw [hu]
        have sp : Spaced (32 :: (t ++ (32 :: (b "<" ++ (32 :: (join a ++ (32 :: b ">"))))))) ([t] ++ ([b "<"] ++ (a ++ [b ">"]))) := by
          have s1 : Spaced (32 :: (join a ++ (32 :: b ">"))) (a ++ [b ">"]) :=
            .space ((Spaced.join fun x hx => tokn_clean (ha x hx)).append (Spaced.one hgt) (.inr rfl))
          have s2 : Spaced (32 :: b "<" ++ (32 :: (join a ++ (32 :: b ">")))) ([b "<"] ++ (a ++ [b ">"])) :=
            (Spaced.one hlt).append s1 (.inr rfl)
          exact (Spaced.one hc).append s2 (.inr rfl)
        have := hr.append sp (clean_head hc _) (by simp) (by
          have := clean_last hgt (32 :: (t ++ (32 :: (b "<" ++ (32 :: (join a ++ [32]))))))
          simpa using this)
        simpa using this) (by decide) hk
    refine ⟨r', b', l', ?_, by simpa using h2, h3⟩
    have e1 : t :: b "<" :: (a ++ b ">" :: p) ++ k = t :: (b "<" :: (a ++ b ">" :: (p ++ k))) := by simp
    rw [e1]
    exact (r1.trans r2).trans h1

/-! ### Functions -/

private theorem look_run (e : Str) (he : starts ";{" e = true) (hec : e ≠ b "const") (hed : e ≠ b "delete") (k : List Str) :
    ∀ (x : List Str) (c d : Bool) (la tk : Str), starts ";{" tk = false → (∀ t ∈ x, starts ";{" t = false) →
      ∃ la', look c d la tk (x ++ e :: k) = some (c || x.contains (b "const"), d || x.contains (b "delete"), ⟨la', e, k⟩) := by
  intro x
  induction x with
  | nil =>
    intro c d la tk htk _
    refine ⟨tk, ?_⟩
    rw [look.eq_def, if_neg (by simp [htk])]
    simp only [List.nil_append]
    have h1 : (e == b "const") = false := by simpa using hec
    have h2 : (e == b "delete") = false := by simpa using hed
    rw [h1, h2, look.eq_def, if_pos he]
    simp
  | cons t x ih =>
    intro c d la tk htk hx
    obtain ⟨la', h⟩ := ih (c || t == b "const") (d || t == b "delete") tk t (hx t (by simp)) fun y hy => hx y (by simp [hy])
    refine ⟨la', ?_⟩
    rw [look.eq_def, if_neg (by simp [htk])]
    simp only [List.cons_append]
    rw [h]
    simp only [List.contains_cons, Bool.or_assoc, BEq.comm (a := t)]

private theorem afterScope_none : ∀ {x : Str}, 58 ∉ x → afterScope x = none := by
  intro x
  induction x with
  | nil => intro _; rfl
  | cons c x ih =>
    intro h
    simp only [List.mem_cons, not_or] at h
    rw [afterScope, ih h.2]
    simp [Ne.symm h.1]

private theorem afterScope_some {x : Str} (h : 58 ∉ x) : ∀ q : Str, afterScope (q ++ 58 :: 58 :: x) = some x := by
  intro q
  induction q with
  | nil =>
    have h1 : x.head? ≠ some 58 := by
      cases x with
      | nil => simp
      | cons c x => simp at h ⊢; exact fun e => h.1 e.symm
    have h2 : afterScope (58 :: x) = none := by
      rw [afterScope, afterScope_none h]; simp [h1]
    rw [List.nil_append, afterScope, h2]; simp
  | cons c q ih => rw [List.cons_append, afterScope, ih]

private theorem take_pre (c : Class) : c.pre.take (c.pre.length - 2) = c.scope ++ c.name ++ c.targs := by
  rw [Class.pre, List.length_append]
  have : (b "::").length = 2 := by decide
  rw [this, Nat.add_sub_cancel, List.take_left]

private theorem name_chars {c : Class} {l} (h : c.Ok l) : 58 ∉ c.name ∧ 60 ∉ c.name ∧ c.name ≠ [] := by
  have := ident_chars h.name
  exact ⟨fun x => absurd (this.2 _ x) (by decide), fun x => absurd (this.2 _ x) (by decide), this.1⟩

private theorem className_eq {c : Class} {l} (h : c.Ok l) : className c.pre = c.name := by
  obtain ⟨h1, h2, _⟩ := name_chars h
  have hw : (c.scope ++ c.name ++ c.targs).takeWhile (· != 60) = c.scope ++ c.name := by
    have hall : ∀ x ∈ c.scope ++ c.name, (x != 60) = true := by
      intro x hx
      simp only [bne_iff_ne, ne_eq]
      rintro rfl
      rcases List.mem_append.1 hx with hx | hx
      · exact h.scope' hx
      · exact h2 hx
    rw [List.takeWhile_append_of_pos hall]
    rcases h.targs with e | ⟨e, _⟩
    · simp [e]
    · cases ht : c.targs with
      | nil => simp
      | cons x r => rw [ht] at e; simp at e; subst e; simp
  rw [className, take_pre, hw]
  rcases h.scope with e | ⟨q, e⟩
  · rw [e, List.nil_append, afterScope_none h1]; rfl
  · have : b "::" = [58, 58] := by decide
    rw [e, this]
    have := afterScope_some h1 q
    simp only [List.append_assoc, List.cons_append, List.nil_append]
    rw [this]; rfl

private theorem reinstate_id {c : Class} {l} (h : c.Ok l) {rp : Bool} {text : Str} {ts : List Str} (hs : Spells text ts)
    (ht : c.targs = [] ∨ ∀ t ∈ ts, ¬ c.name <:+: t) : reinstate ⟨c.pre, rp⟩ text = some text := by
  unfold reinstate
  split
  · rename_i hc
    have hts : ∀ t ∈ ts, ¬ c.name <:+: t := by
      rcases ht with e | ht
      · exfalso
        simp only [Class.pre, e, List.append_nil, List.contains_eq_mem, List.mem_append, decide_eq_true_eq] at hc
        rcases hc with (hc | hc) | hc
        · exact h.scope' hc
        · exact (name_chars h).2.1 hc
        · exact absurd hc (by decide)
      · exact ht
    rw [className_eq h]
    apply Scan.C44_absent
    intro k _ hk
    have : c.name <:+: text := by
      obtain ⟨v, e⟩ := hk
      exact ⟨text.take k, v, by rw [List.append_assoc, e, List.take_append_drop]⟩
    obtain ⟨t, ht, hi⟩ := spells_infix hs h.name this
    exact hts t ht hi
  · rfl

private theorem ret_tokn {p R : List Str} {st : Bool} (h : Pre p R st) : ∀ t ∈ R, Tokn t := by
  have plain : ∀ {t : Str}, t ≠ [] → (∀ c ∈ t, isSpace c = false) → (¬ b "::" <:+: t) → (¬ b "typename" <:+: t) → Tokn t :=
    fun a b c d => ⟨a, b, .inr c, .inr d⟩
  induction h with
  | nil => simp
  | drop _ _ ih => exact ih
  | static _ ih => exact ih
  | word ht _ ih =>
    intro x hx
    rcases List.mem_cons.1 hx with rfl | hx
    · exact ht.toTokn
    · exact ih x hx
  | angle ht ha _ _ _ _ ih =>
    intro x hx
    simp only [List.mem_cons, List.mem_append] at hx
    rcases hx with rfl | rfl | hx | rfl | hx
    · exact ht.toTokn
    · exact plain (by decide) (by decide) (by decide) (by decide)
    · exact ha x hx
    · exact plain (by decide) (by decide) (by decide) (by decide)
    · exact ih x hx

private def Fn.kind (f : Fn) (cls : Str) : Kind :=
  if f.name = cls then .constructor else if f.static = true then .static else if f.quals = [] then .none else .const

private theorem declare_is {c : Class} {f : Fn} (hf : f.Ok) {n : Nat} {A al : Str} (hA : RetText A f.ret)
    (hal : Spells al (commas (f.params.map Param.ty))) :
    (f.want c.name n).Is c.pre (Sig.declare ⟨b "TmpMemPtr_" ++ f.name ++ dec n, A, al, c.pre, f.name, Fn.kind f c.name⟩) := by
  refine ⟨al, hal, ?_⟩
  obtain ⟨out, h1, h2⟩ := insert_spec hA (ret_tokn hf.spec) hf.typed
  by_cases hn : f.name = c.name
  · simp only [Fn.want, Fn.kind, hn, if_true, Sig.declare, Want.var]
  · by_cases hs : f.static = true
    · simp only [Fn.want, Fn.kind, hn, hs, if_true, if_false, Sig.declare, Want.var]
      exact ⟨_, out, h1, h2, rfl⟩
    · simp only [Fn.want, Fn.kind, hn, hs, if_false, Sig.declare, Want.var]
      refine ⟨insertTypename A, out, h1, h2, ?_⟩
      have e1 : b ")=&" = b ")" ++ b "=&" := by decide
      have e2 : b ") const=&" = b ")" ++ (32 :: b "const" ++ b "=&") := by decide
      rcases hf.quals with hq | hq
      · simp only [hq, if_true, e1]; simp
      · have : ¬ ([b "const"] = ([] : List Str)) := by simp
        simp only [hq, this, if_false, e2]; simp

/-- What a function adds. -/
private def sigs (c : Class) (rp : Bool) (priv : Bool) (names : List Str) (i : Item) : List Want := wants c.name rp priv names [i]

private theorem mem_post {f : Fn} (hf : f.Ok) : (∀ t ∈ f.quals ++ f.post, starts ";{" t = false) ∧
    ((f.quals ++ f.post).contains (b "const") = !f.quals.isEmpty) ∧
    ((f.quals ++ f.post).contains (b "delete") = true ↔ b "delete" ∈ f.post) := by
  refine ⟨?_, ?_, ?_⟩
  · intro t ht
    rcases List.mem_append.1 ht with h | h
    · rcases hf.quals with e | e
      · rw [e] at h; simp at h
      · rw [e] at h; simp at h; subst h; decide
    · exact (hf.post t h).1
  · have hp : b "const" ∉ f.post := fun h => (hf.post _ h).2 rfl
    rcases hf.quals with e | e <;> simp [e, hp]
  · rcases hf.quals with e | e
    · simp [e]
    · have : ¬ b "delete" = b "const" := by decide
      simp [e, this]

private theorem function_run {c : Class} {l : List Item} (hc : c.Ok l) (rp : Bool) {f : Fn} (hf : f.Ok) (hl : .fn f ∈ l) (s : St) (bef : Str)
    (hb : bef = b "~" ↔ f.dtor = true) (hA : f.dtor = false → RetText s.ret f.ret) (hs : f.dtor = false → s.static = f.static)
    (e : Str) (he : e = b ";" ∨ e = b "{") (k : List Str) :
    ∃ o r, argToks f.params ++ (f.quals ++ (f.post ++ e :: k)) = o :: r ∧ (o = b "(" ∨ o = b "()") ∧ ∃ s' la, k.length < r.length ∧
      function ⟨c.pre, rp⟩ s bef ⟨f.name, o, r⟩ = some (s', ⟨la, e, k⟩) ∧
      s'.static = false ∧ s'.priv = s.priv ∧ s'.names = s.names ++ [f.name] ∧
      ∃ new, s'.out = s.out ++ new ∧ All2 (Want.Is c.pre) (sigs c rp s.priv s.names (.fn f)) (new.map Sig.declare) := by
  obtain ⟨o, r, ho, ho', hargs⟩ := args_run f.params hf.params hf.first f.name
  obtain ⟨text, la, tk, h1, h2, h3⟩ := hargs (f.quals ++ (f.post ++ e :: k))
  obtain ⟨m1, m2, m3⟩ := mem_post hf
  obtain ⟨la', h4⟩ := look_run e (by rcases he with rfl | rfl <;> decide) (by rcases he with rfl | rfl <;> decide)
    (by rcases he with rfl | rfl <;> decide) k (f.quals ++ f.post) false false la tk h2 m1
  rw [List.append_assoc] at h4
  refine ⟨o, r ++ (f.quals ++ (f.post ++ e :: k)), by rw [ho]; rfl, ho', ?_⟩
  have hlen : k.length < (r ++ (f.quals ++ (f.post ++ e :: k))).length := by simp; omega
  simp only [function, h1, Option.bind_eq_bind, Option.bind_some, h4, hf.name.2, if_true, Bool.false_or]
  have hcount : (s.names ++ [f.name]).count f.name = s.names.count f.name + 1 := by simp
  by_cases hreg : f.Registered
  · obtain ⟨g1, g2, g3, g4⟩ := hreg
    have hbe : (bef == b "~") = false := by
      have : ¬ bef = b "~" := by rw [hb, g1]; simp
      simpa using this
    have hdel : (f.quals ++ f.post).contains (b "delete") = false := by
      cases h : (f.quals ++ f.post).contains (b "delete") with
      | true => exact absurd (m3.1 h) g2
      | false => rfl
    rw [if_pos ⟨hbe, hdel, g3, g4⟩]
    have hT : c.targs = [] ∨ ∀ t ∈ f.ret ++ commas (f.params.map Param.ty), ¬ c.name <:+: t := by
      rcases hc.targs with e | ⟨_, e⟩
      · exact .inl e
      · exact .inr (e f hl)
    have r1 := reinstate_id hc (rp := rp) (hA g1).spaced.spells (hT.imp id fun h t ht => h t (by simp [ht]))
    have r2 := reinstate_id hc (rp := rp) h3 (hT.imp id fun h t ht => h t (by simp [ht]))
    simp only [r1, r2, Option.bind_some]
    have hk : kindOf ⟨c.pre, rp⟩ f.name (bef == b "~") s.static ((f.quals ++ f.post).contains (b "const")) = Fn.kind f c.name := by
      rw [kindOf, hbe, m2, hs g1]
      simp only [className_eq hc, and_true, Fn.kind]
      congr 2
      rcases hf.quals with e | e <;> simp [e]
    rw [hk]
    refine ⟨_, la', hlen, rfl, rfl, rfl, rfl, ?_⟩
    have hR : f.Registered := ⟨g1, g2, g3, g4⟩
    by_cases hp : s.priv = true
    · refine ⟨[], by simp [hp], ?_⟩
      simp only [sigs, wants, hR, hp, List.map_nil, List.append_nil]
      simp only [Bool.true_eq_false, and_false, if_false]
      exact .nil
    · have hp : s.priv = false := by simpa using hp
      refine ⟨[_], by simp only [hp, Bool.false_eq_true, if_false]; rfl, ?_⟩
      simp only [sigs, wants, hR, hp, List.append_nil, and_self, if_true, List.map_cons, List.map_nil]
      refine .cons ?_ .nil
      rw [hcount]
      exact declare_is hf (hA g1) h3
  · rw [if_neg]
    · refine ⟨_, la', hlen, rfl, rfl, rfl, rfl, [], by simp, ?_⟩
      simp only [sigs, wants, hreg, false_and, if_false, List.map_nil, List.append_nil]
      exact .nil
    · rintro ⟨a1, a2, a3, a4⟩
      refine hreg ⟨?_, ?_, a3, a4⟩
      · cases hd : f.dtor with
        | false => rfl
        | true => have := hb.2 hd; simp [this] at a1
      · intro h
        have := m3.2 h
        rw [a2] at this; cases this

private theorem step_fn (o : Opts) (s s' : St) (bef nm op la e : Str) (r k : List Str) (hop : op = b "(" ∨ op = b "()")
    (hf : function o s bef ⟨nm, op, r⟩ = some (s', ⟨la, e, k⟩)) {s'' : St} {j : Reader}
    (h : (if e = b "{" then gob ⟨la, e, k⟩ (b "{") (b "}") else some ([], ⟨la, e, k⟩)).bind (fun x =>
      (collect s'.ret x.2).bind fun y => (next y.2).bind fun z => some (({ s' with ret := y.1 } : St), y.2.last, z)) = some (s'', bef', j)) :
    step o s bef ⟨nm, op, r⟩ = some (s'', bef', j) := by
  have h1 : op ∉ [b "private", b "protected", b "public"] ∧ op ∉ other ∧ ¬ (starts "{;,:=" op = true ∧ op ≠ b "::") ∧
      op ≠ b "static" ∧ op.head? = some 40 := by
    rcases hop with rfl | rfl <;> decide
  obtain ⟨a1, a2, a3, a4, a5⟩ := h1
  unfold step
  rw [if_neg a1, if_neg a2]
  simp only [a3, a4, a5, if_false, if_true, Option.bind_eq_bind, Option.bind_some, hf]
  by_cases he : e = b "{"
  · rw [if_pos he] at h ⊢; exact h
  · rw [if_neg he] at h ⊢; exact h

private theorem reach_fn (o : Opts) (s s' : St) (bef nm op la : Str) (r K : List Str) (body : Option (List Str)) (hop : op = b "(" ∨ op = b "()")
    {e : Str} {k : List Str} (hb : bodyToks body ++ K = e :: k) (hbal : ∀ v, body = some v → Balanced (b "{") (b "}") v)
    (hf : function o s bef ⟨nm, op, r⟩ = some (s', ⟨la, e, k⟩)) (hl : k.length < r.length) (hK : K ≠ []) :
    ∃ ret bef' la', Reach o s bef ⟨nm, op, r⟩ { s' with ret := ret } bef' (rd la' K) ∧ clears la' ∧ la' ≠ b "~" := by
  have hne : op ≠ b "}" := by rcases hop with rfl | rfl <;> decide
  cases body with
  | none =>
    obtain ⟨rfl, rfl⟩ := List.cons.inj (show b ";" :: K = e :: k from hb)
    refine ⟨upd s'.ret la, la, b ";", .step hne (step_fn o s s' bef nm op la _ r _ hop hf ?_) ?_, by decide, by decide⟩
    · rw [if_neg (by decide)]
      simp only [Option.bind_some]
      rw [collect_upd _ _ (by show b ";" ≠ b "<"; decide)]
      simp only [Option.bind_some, next_rd _ _ hK]
    · have := rd_len (b ";") hK
      simp only
      omega
  | some v =>
    obtain ⟨rfl, rfl⟩ := List.cons.inj (show b "{" :: (v ++ [b "}"] ++ K) = e :: k from hb)
    have hg := gob_eq (Scan.C45_gobble (left := b "{") (right := b "}") (by decide) (by decide) ⟨la, b "{", v ++ [b "}"] ++ K⟩
      (show b "{" ≠ b "{" ++ b "}" by decide) v K (by simp) (hbal v rfl))
    refine ⟨upd s'.ret (lastTok (b "{") v), lastTok (b "{") v, b "}", .step hne (step_fn o s s' bef nm op la _ r _ hop hf ?_) ?_,
      by decide, by decide⟩
    · rw [if_pos rfl, hg]
      simp only [Option.bind_some]
      rw [collect_upd _ _ (by show b "}" ≠ b "<"; decide)]
      simp only [Option.bind_some, next_rd _ _ hK]
    · have := rd_len (b "}") hK
      simp only [List.length_append, List.length_cons, List.length_nil] at hl ⊢
      omega

private theorem start_ret {la : Str} (h : clears la) (ret : Str) : RetText (upd ret la) [] := by
  rw [upd, if_pos h]; exact .inl ⟨rfl, rfl⟩

private theorem run_fn {c : Class} {l : List Item} (hc : c.Ok l) (rp : Bool) {f : Fn} (hf : f.Ok) (hl : .fn f ∈ l) (s : St)
    (hs : s.static = false) (bef la : Str) (hla : clears la) (hla' : la ≠ b "~") (K : List Str) (hK : K ≠ []) :
    ∃ s' bef' la', Reach ⟨c.pre, rp⟩ s bef (rd la (f.toks ++ K)) s' bef' (rd la' K) ∧ clears la' ∧ la' ≠ b "~" ∧
      s'.static = false ∧ s'.priv = s.priv ∧ s'.names = s.names ++ [f.name] ∧
      ∃ new, s'.out = s.out ++ new ∧ All2 (Want.Is c.pre) (sigs c rp s.priv s.names (.fn f)) (new.map Sig.declare) := by
  obtain ⟨hp, hns, hnt, _⟩ := word_plain hf.name.1
  have hbody : ∃ e k, bodyToks f.body ++ K = e :: k ∧ (e = b ";" ∨ e = b "{") := by
    cases f.body with
    | none => exact ⟨_, _, rfl, .inl rfl⟩
    | some v => exact ⟨_, _, rfl, .inr rfl⟩
  obtain ⟨e, k, hek, he⟩ := hbody
  obtain ⟨ret1, bef1, l1, r1, t1, n1⟩ := run_pre ⟨c.pre, rp⟩ hf.spec s bef la []
    ((if f.dtor = true then [b "~"] else []) ++ f.name :: (argToks f.params ++ (f.quals ++ (f.post ++ e :: k))))
    (start_ret hla _) hla' (by simp)
  rw [hs, Bool.false_or, List.nil_append] at *
  have hargs : argToks f.params ++ (f.quals ++ (f.post ++ e :: k)) ≠ [] := by simp
  have hst : (f.name == b "static") = false := by simpa using hns
  have htoks : f.toks ++ K = f.spec ++ ((if f.dtor = true then [b "~"] else []) ++
      f.name :: (argToks f.params ++ (f.quals ++ (f.post ++ e :: k)))) := by
    rw [Fn.toks, ← hek]; simp
  -- up to the opening parenthesis
  have h2 : ∃ s2 bef2, Reach ⟨c.pre, rp⟩ s bef (rd la (f.toks ++ K)) s2 bef2
      (rd f.name (argToks f.params ++ (f.quals ++ (f.post ++ e :: k)))) ∧ (bef2 = b "~" ↔ f.dtor = true) ∧
      (f.dtor = false → RetText s2.ret f.ret) ∧ (f.dtor = false → s2.static = f.static) ∧ s2.priv = s.priv ∧ s2.names = s.names ∧ s2.out = s.out := by
    rw [htoks]
    cases hd : f.dtor with
    | false =>
      simp only [hd, Bool.false_eq_true, if_false, List.nil_append] at r1 ⊢
      have r2 := reach_plain ⟨c.pre, rp⟩ ({ s with ret := ret1, static := f.static } : St) bef1 l1 hp hargs
      rw [hst, Bool.or_false] at r2
      exact ⟨_, _, r1.trans r2, by simp [n1], fun _ => t1, fun _ => rfl, rfl, rfl, rfl⟩
    | true =>
      simp only [hd, if_true, List.cons_append, List.nil_append] at r1 ⊢
      have r2 := reach_plain ⟨c.pre, rp⟩ ({ s with ret := ret1, static := f.static } : St) bef1 l1 (t := b "~")
        ⟨by decide, by decide, by decide, by decide, by decide⟩
        (k := f.name :: (argToks f.params ++ (f.quals ++ (f.post ++ e :: k)))) (by simp)
      exact ⟨_, _, (r1.trans r2).trans (reach_plain ⟨c.pre, rp⟩ _ l1 (b "~") hp hargs), by simp, by simp, by simp, rfl, rfl, rfl⟩
  obtain ⟨s2, bef2, r2, hb2, hret2, hst2, hp2, hn2, ho2⟩ := h2
  obtain ⟨o, r, hor, ho, s3, la3, hlen, hfun, g1, g2, g3, new, g4, g5⟩ :=
    function_run hc rp hf hl s2 bef2 hb2 hret2 hst2 e he k
  rw [hor] at r2
  obtain ⟨ret, bef', la', r3, h3, h4⟩ := reach_fn ⟨c.pre, rp⟩ s2 s3 bef2 f.name o la3 r K f.body ho hek hf.body hfun hlen hK
  refine ⟨_, bef', la', r2.trans r3, h3, h4, g1, by rw [← hp2]; exact g2, by rw [← hn2]; exact g3, new, by rw [← ho2]; exact g4, ?_⟩
  rw [hp2, hn2] at g5
  exact g5

private theorem skip_run (K : List Str) : ∀ (v : List Str) (la tk : Str), starts ";," tk = false → (∀ t ∈ v, starts ";," t = false) →
    ∃ la', skip la tk (v ++ b ";" :: K) = some ⟨la', b ";", K⟩ := by
  intro v
  induction v with
  | nil =>
    intro la tk h _
    refine ⟨tk, ?_⟩
    rw [List.nil_append, skip.eq_def, if_neg (by simp [h])]
    simp only
    rw [skip.eq_def, if_pos (by decide)]
  | cons t v ih =>
    intro la tk h hv
    obtain ⟨la', h'⟩ := ih tk t (hv t (by simp)) fun x hx => hv x (by simp [hx])
    refine ⟨la', ?_⟩
    rw [List.cons_append, skip.eq_def, if_neg (by simp [h])]
    exact h'

private theorem step_scalar (o : Opts) (s : St) (bef nm tk la : Str) (r K : List Str) (htk : tk = b ";" ∨ tk = b "=")
    (hn : identStart nm = true) (hsk : skip nm tk r = some ⟨la, b ";", K⟩) (hK : K ≠ []) :
    step o s bef ⟨nm, tk, r⟩ = some ({ s with static := false, ret := upd s.ret la }, la, rd (b ";") K) := by
  have h1 : tk ∉ [b "private", b "protected", b "public"] ∧ tk ∉ other ∧ (starts "{;,:=" tk = true ∧ tk ≠ b "::") := by
    rcases htk with rfl | rfl <;> decide
  unfold step
  rw [if_neg h1.1, if_neg h1.2.1]
  simp only [h1.2.2, ne_eq, not_false_eq_true, and_self, if_true, hsk, hn, Option.map_some, Option.bind_eq_bind, Option.bind_some]
  rw [if_neg (show b ";" ≠ b "static" by decide), if_neg (by show ¬ (b ";").head? = some 40; decide)]
  rw [if_neg (show b ";" ≠ b "{" by decide)]
  simp only [Option.bind_some]
  rw [collect_upd _ _ (by show b ";" ≠ b "<"; decide)]
  simp only [Option.bind_some, next_rd _ _ hK]

private theorem run_data (o : Opts) {spec ret : List Str} {st : Bool} {nm : Str} {init : Option (List Str)}
    (h : (Item.data spec ret st nm init).Ok) (s : St)
    (bef la : Str) (hla : clears la) (hla' : la ≠ b "~") (K : List Str) (hK : K ≠ []) :
    ∃ ret' bef', Reach o s bef (rd la ((Item.data spec ret st nm init).toks ++ K)) { s with ret := ret', static := false } bef'
      (rd (b ";") K) := by
  obtain ⟨h1, h2, h3, h4⟩ := h
  obtain ⟨hp, hns, _⟩ := word_plain h2
  have hst : (nm == b "static") = false := by simpa using hns
  have key : ∀ tk r la2, (tk = b ";" ∨ tk = b "=") → skip nm tk r = some ⟨la2, b ";", K⟩ → K.length ≤ r.length →
      ∃ ret' bef', Reach o s bef (rd la (spec ++ nm :: tk :: r)) { s with ret := ret', static := false } bef' (rd (b ";") K) := by
    intro tk r la2 htk hsk hlen
    obtain ⟨ret1, bef1, l1, r1, _, _⟩ := run_pre o h1 s bef la [] (nm :: tk :: r) (start_ret hla _) hla' (by simp)
    have r2 := reach_plain o ({ s with ret := ret1, static := s.static || st } : St) bef1 l1 hp (k := tk :: r) (by simp)
    rw [hst, Bool.or_false] at r2
    have r3 := Reach.step (i := rd nm (tk :: r)) (by show tk ≠ b "}"; rcases htk with rfl | rfl <;> decide)
      (step_scalar o ({ s with ret := upd ret1 l1, static := s.static || st } : St) l1 nm tk la2 r K htk h3 hsk hK)
      (by have := rd_len (b ";") hK; simp only [rd]; simp only [rd] at this; omega)
    exact ⟨_, _, (r1.trans r2).trans r3⟩
  cases init with
  | none =>
    have := key (b ";") K nm (.inl rfl) (by rw [skip.eq_def, if_pos (by decide)]) (Nat.le_refl _)
    simpa [Item.toks] using this
  | some v =>
    obtain ⟨la2, hsk⟩ := skip_run K v nm (b "=") (by decide) (h4 v rfl)
    have := key (b "=") (v ++ b ";" :: K) la2 (.inr rfl) hsk (by simp; omega)
    simpa [Item.toks] using this

private theorem run_label (o : Opts) (s : St) (bef la kw : Str) (h : kw ∈ [b "private", b "protected", b "public"]) (K : List Str)
    (hK : K ≠ []) : Reach o s bef (rd la (kw :: b ":" :: K)) { s with priv := o.respectPrivate && (kw != b "public") } kw (rd (b ":") K) := by
  have hkw : kw ≠ b "}" ∧ kw ≠ b ":" := by
    simp only [List.mem_cons, List.not_mem_nil, or_false] at h
    rcases h with rfl | rfl | rfl <;> decide
  refine .step hkw.1 ?_ ?_
  · show step o s bef ⟨la, kw, b ":" :: K⟩ = _
    unfold step
    rw [if_pos h]
    have hg : gob ⟨la, kw, b ":" :: K⟩ [] (b ":") = some (la ++ Scan.sp ++ kw ++ Scan.sp, ⟨kw, b ":", K⟩) := by
      simp [gob, gobble, hkw.2, Scan.gobbleLoop]
    rw [hg]
    simp only [Option.bind_eq_bind, Option.bind_some, next_rd _ _ hK]
  · have := rd_len (b ":") hK
    simp only [rd] at this ⊢
    simp only [List.length_cons]
    omega

private theorem all2_append {α β} {R : α → β → Prop} {a c : List α} {d e : List β} (h : All2 R a d) (h' : All2 R c e) :
    All2 R (a ++ c) (d ++ e) := by
  induction h with
  | nil => exact h'
  | cons h _ ih => exact .cons h ih

private theorem wants_cons (cls : Str) (rp hid : Bool) (seen : List Str) (f : Fn) (l : List Item) :
    wants cls rp hid seen (.fn f :: l) = wants cls rp hid seen [.fn f] ++ wants cls rp hid (seen ++ [f.name]) l := by
  simp [wants]

private theorem run_items {c : Class} {L : List Item} (hc : c.Ok L) (rp : Bool) : ∀ (l : List Item), (∀ i ∈ l, i ∈ L) → (∀ i ∈ l, i.Ok) →
    ∀ (s : St) (bef la : Str) (k : List Str), s.static = false → clears la → la ≠ b "~" →
    ∃ s' bef' la', Reach ⟨c.pre, rp⟩ s bef (rd la (l.flatMap Item.toks ++ b "}" :: k)) s' bef' (rd la' (b "}" :: k)) ∧
      ∃ new, s'.out = s.out ++ new ∧ All2 (Want.Is c.pre) (wants c.name rp s.priv s.names l) (new.map Sig.declare) := by
  intro l
  induction l with
  | nil =>
    intro _ _ s bef la k _ _ _
    exact ⟨s, bef, la, .refl .., [], by simp, .nil⟩
  | cons i l ih =>
    intro hL hok s bef la k hs hla hla'
    have hL' := fun x hx => hL x (List.mem_cons_of_mem i hx)
    have hok' := fun x hx => hok x (List.mem_cons_of_mem i hx)
    have hK : l.flatMap Item.toks ++ b "}" :: k ≠ [] := by simp
    have hi := hok i (by simp)
    cases i with
    | fn f =>
      obtain ⟨s1, bef1, la1, r1, c1, n1, q1, q2, q3, new1, q4, q5⟩ :=
        run_fn hc rp hi (hL (.fn f) (by simp)) s hs bef la hla hla' (l.flatMap Item.toks ++ b "}" :: k) hK
      obtain ⟨s2, bef2, la2, r2, new2, q6, q7⟩ := ih hL' hok' s1 bef1 la1 k q1 c1 n1
      refine ⟨s2, bef2, la2, ?_, new1 ++ new2, by rw [q6, q4, List.append_assoc], ?_⟩
      · rw [List.flatMap_cons, List.append_assoc]; exact r1.trans r2
      · rw [wants_cons, List.map_append]
        refine all2_append q5 ?_
        rw [q2, q3] at q7
        exact q7
    | label kw =>
      have r1 := run_label ⟨c.pre, rp⟩ s bef la kw hi _ hK
      obtain ⟨s2, bef2, la2, r2, new2, q6, q7⟩ := ih hL' hok' { s with priv := rp && (kw != b "public") } kw (b ":") k hs (by decide) (by decide)
      refine ⟨s2, bef2, la2, ?_, new2, q6, q7⟩
      rw [List.flatMap_cons, List.append_assoc]; exact r1.trans r2
    | data spec ret st nm init =>
      obtain ⟨ret1, bef1, r1⟩ := run_data ⟨c.pre, rp⟩ hi s bef la hla hla' _ hK
      obtain ⟨s2, bef2, la2, r2, new2, q6, q7⟩ := ih hL' hok' { s with ret := ret1, static := false } bef1 (b ";") k rfl (by decide) (by decide)
      refine ⟨s2, bef2, la2, ?_, new2, q6, q7⟩
      rw [List.flatMap_cons, List.append_assoc]; exact r1.trans r2

/-- C81: for a class of functions, data members and access labels, the generator declares a pointer for each member
function that is not hidden, destroyed (`delete`) or a destructor, in order; each is declared with the return type,
argument types (without default arguments) and qualifier of its function, as an ordinary pointer if the function is
static and as a dummy if it is a constructor, and is given the address of its function; the variables are numbered among the
functions of the same name.  Missing from the full statement: the kinds of function in the theorems below, and
class templates whose functions mention the name of the template (C44). -/
theorem C81_declared_partial (c : Class) (l : List Item) (hc : c.Ok l) (hl : ∀ i ∈ l, i.Ok) (respect isClass : Bool) (k : List Str) :
    ∃ texts, declarations ⟨c.pre, respect⟩ isClass (l.flatMap Item.toks ++ b "}" :: k) = some texts ∧
      All2 (Want.Is c.pre) (wants c.name respect (isClass && respect) [] l) texts := by
  obtain ⟨s', bef', la', ⟨n, h1, h2⟩, new, h3, h4⟩ := run_items hc respect l (fun _ h => h) hl
    ⟨[], false, isClass && respect, [], []⟩ [] (b "{") k rfl (by decide) (by decide)
  have hne : l.flatMap Item.toks ++ b "}" :: k ≠ [] := by simp
  refine ⟨new.map Sig.declare, ?_, h4⟩
  obtain ⟨t, r, e⟩ := List.exists_cons_of_ne_nil hne
  rw [e] at h1 h2 ⊢
  simp only [declarations]
  have h1' : n + k.length ≤ r.length := h1
  have : r.length + 1 = n + ((r.length - n) + 1) := by omega
  have h2' := h2 (r.length - n + 1)
  rw [← this] at h2'
  have h2'' : loop ⟨c.pre, respect⟩ (r.length + 1) ⟨[], false, isClass && respect, [], []⟩ [] ⟨b "{", t, r⟩ =
      loop ⟨c.pre, respect⟩ (r.length - n + 1) s' bef' ⟨la', b "}", k⟩ := h2'
  rw [h2'', loop, if_pos rfl]
  simp only [List.nil_append] at h3
  simp [h3]

/-- Two functions, or two overloads of one, have different variables, if no name ends in a digit.  Missing:
names that do (`C81_names_fails`). -/
theorem C81_distinct_partial (cls : Str) (respect hidden : Bool) (l : List Item)
    (h : ∀ f, .fn f ∈ l → ∃ u c, f.name = u ++ [c] ∧ Xml.isDigit c = false) :
    ((wants cls respect hidden [] l).map Want.var).Nodup := by
  have inj : ∀ {n m : Str} {i j : Nat}, (∃ u c, n = u ++ [c] ∧ Xml.isDigit c = false) → (∃ u c, m = u ++ [c] ∧ Xml.isDigit c = false) →
      n ++ dec i = m ++ dec j → n = m ∧ i = j := by
    rintro _ _ i j ⟨u, c, rfl, hc⟩ ⟨v, d, rfl, hd⟩ e
    have tw : ∀ (w : Str) (x : UInt8) (n : Nat), Xml.isDigit x = false →
        ((w ++ [x] ++ dec n).reverse.takeWhile Xml.isDigit = (dec n).reverse) := by
      intro w x n hx
      rw [List.reverse_append, List.takeWhile_append_of_pos (fun y hy => Xml.dec_digits (List.mem_reverse.1 hy))]
      simp [hx]
    have e1 := tw u c i hc
    rw [e, tw v d j hd] at e1
    have e2 : dec j = dec i := List.reverse_inj.1 e1
    have := Xml.dec_inj e2
    subst this
    exact ⟨List.append_cancel_right e, rfl⟩
  have key : ∀ (l : List Item) (hidden : Bool) (seen : List Str), (∀ f, .fn f ∈ l → ∃ u c, f.name = u ++ [c] ∧ Xml.isDigit c = false) →
      ((wants cls respect hidden seen l).map Want.var).Nodup ∧ ∀ w ∈ wants cls respect hidden seen l,
        seen.count w.name < w.number ∧ ∃ u c, w.name = u ++ [c] ∧ Xml.isDigit c = false := by
    intro l
    induction l with
    | nil => intro _ _ _; simp [wants]
    | cons i l ih =>
      intro hidden seen hl
      have hl' : ∀ f, .fn f ∈ l → ∃ u c, f.name = u ++ [c] ∧ Xml.isDigit c = false := fun f hf => hl f (by simp [hf])
      cases i with
      | label kw => exact ih _ _ hl'
      | data => exact ih _ _ hl'
      | fn f =>
        obtain ⟨h1, h2⟩ := ih hidden (seen ++ [f.name]) hl'
        have hf := hl f (by simp)
        have h2' : ∀ w ∈ wants cls respect hidden (seen ++ [f.name]) l,
            seen.count w.name < w.number ∧ ∃ u c, w.name = u ++ [c] ∧ Xml.isDigit c = false := by
          intro w hw
          have := h2 w hw
          refine ⟨?_, this.2⟩
          have h3 := this.1
          rw [List.count_append] at h3
          omega
        rw [wants]
        split
        · constructor
          · simp only [List.cons_append, List.nil_append, List.map_cons, List.nodup_cons]
            refine ⟨?_, h1⟩
            intro hm
            obtain ⟨w, hw, e⟩ := List.mem_map.1 hm
            have hw' := h2 w hw
            simp only [Want.var, Fn.want, List.append_assoc] at e
            have e' := List.append_cancel_left e
            obtain ⟨en, ei⟩ := inj hw'.2 hf e'
            have h3 := hw'.1
            rw [en, ei, List.count_append] at h3
            simp at h3
          · intro w hw
            simp only [List.cons_append, List.nil_append, List.mem_cons] at hw
            rcases hw with rfl | hw
            · exact ⟨by simp [Fn.want], hf⟩
            · exact h2' w hw
        · exact ⟨h1, h2'⟩
  exact (key l hidden [] h).1

/-! A class with a member to which the theorem applies:
`virtual const std::string& f(int a, std::map<int,int> m={1,2}) const; static B<int> f(A); private: int x=1;` -/

private theorem mkTokn {t : Str} (h : t ≠ [] ∧ (∀ c ∈ t, isSpace c = false) ∧ (t = b "::" ∨ ¬ b "::" <:+: t) ∧
    (t = b "typename" ∨ ¬ b "typename" <:+: t)) : Tokn t := ⟨h.1, h.2.1, h.2.2.1, h.2.2.2⟩

private theorem mkWord {t : Str} (h : t ≠ [] ∧ (∀ c ∈ t, isSpace c = false) ∧ (t = b "::" ∨ ¬ b "::" <:+: t) ∧
    (t = b "typename" ∨ ¬ b "typename" <:+: t))
    (h2 : t ∉ other ++ [b "private", b "protected", b "public", b "virtual", b "static", b "inline", b "~"])
    (h3 : t = b "::" ∨ ∀ c ∈ t.head?, c ∉ 0 :: b "{;,:=([<})") : Word t := by
  refine ⟨mkTokn h, h2, h3.imp id fun h3 => ?_⟩
  obtain ⟨c, r, rfl⟩ := List.exists_cons_of_ne_nil h.1
  exact ⟨c, r, rfl, h3 c (by simp)⟩

private def exF : Fn :=
  ⟨words ["virtual", "const", "std", "::", "string", "&"], words ["const", "std", "::", "string", "&"], false, false, b "f",
   [⟨words ["int", "a"], none⟩, ⟨words ["std", "::", "map", "<", "int", ",", "int", ">", "m"], some (words ["{", "1", ",", "2", "}"])⟩],
   words ["const"], [], none⟩

private def exG : Fn :=
  ⟨words ["static", "B", "<", "int", ">"], words ["B", "<", "int", ">"], true, false, b "f", [⟨words ["A"], none⟩], [], [],
   some (words ["return", "0", ";"])⟩

private theorem bal_plain {l r : Str} {a : List Str} (h : ∀ t ∈ a, t ≠ l ∧ t ≠ r) : Balanced l r a := by
  induction a with
  | nil => exact bal_nil _ _
  | cons t a ih => exact (bal_cons (h t (by simp)).1 (h t (by simp)).2).2 (ih fun x hx => h x (by simp [hx]))

private theorem id_of {c : UInt8} {r : Str} (h : idStart c = true ∧ ∀ d ∈ r, idChar d = true) : Ident (c :: r) := ⟨c, r, rfl, h⟩

private theorem exF_ok : exF.Ok where
  spec := .drop (.inl rfl) (.word (mkWord (by decide) (by decide) (by decide)) (.word (mkWord (by decide) (by decide) (by decide))
    (.word (mkWord (by decide) (by decide) (by decide)) (.word (mkWord (by decide) (by decide) (by decide))
    (.word (mkWord (by decide) (by decide) (by decide)) .nil)))))
  typed := ⟨by decide, .inr (.inr (.inr ⟨_, rfl, [b "std"], words ["string", "&"], rfl, .inr (.inl ⟨b "std", id_of (by decide), rfl⟩)⟩))⟩
  name := ⟨mkWord (by decide) (by decide) (by decide), by decide⟩
  params := by
    intro p hp
    simp only [exF, List.mem_cons, List.not_mem_nil, or_false] at hp
    rcases hp with rfl | rfl
    · exact ⟨by decide, by decide, bal_plain (by decide), by simp⟩
    · refine ⟨by decide, by decide, bal_plain (by decide), ?_⟩
      intro d hd
      simp only [Option.some.injEq] at hd
      subst hd
      refine ⟨?_, bal_plain (by decide)⟩
      show Default 0 [b "{", b "1", b ",", b "2", b "}"]
      rw [Default, if_pos rfl, Default, if_neg (by decide), if_neg (by decide), if_neg (by decide)]
      refine ⟨by decide, ?_⟩
      rw [Default, if_neg (by decide), if_neg (by decide), if_pos rfl]
      refine ⟨by decide, ?_⟩
      rw [Default, if_neg (by decide), if_neg (by decide), if_neg (by decide)]
      refine ⟨by decide, ?_⟩
      rw [Default, if_neg (by decide), if_pos rfl]
      exact ⟨by decide, rfl⟩
  first := by
    intro p hp
    simp only [exF, List.head?_cons, Option.some.injEq] at hp
    subst hp
    exact ⟨b "int", words ["a"], rfl, id_of (by decide), by decide, fun h => absurd h (by decide)⟩
  quals := .inr rfl
  stat := by simp [exF]
  post := by simp [exF]
  body := by simp [exF]

private theorem exG_ok : exG.Ok where
  spec := .static (.angle (t := b "B") (a := words ["int"]) (mkWord (by decide) (by decide) (by decide))
    (by intro x hx; simp only [words, List.map, List.mem_singleton] at hx; subst hx; exact mkTokn (by decide)) (by decide)
    (by intro k; match k with | 0 => decide | 1 => decide | k + 2 => simp only [words, List.map, List.take_succ_cons, List.take_nil]; decide)
    (by decide) .nil)
  typed := ⟨by decide, .inl (by decide)⟩
  name := ⟨mkWord (by decide) (by decide) (by decide), by decide⟩
  params := by
    intro p hp
    simp only [exG, List.mem_cons, List.not_mem_nil, or_false] at hp
    subst hp
    exact ⟨by decide, by decide, bal_plain (by decide), by simp⟩
  first := by
    intro p hp
    simp only [exG, List.head?_cons, Option.some.injEq] at hp
    subst hp
    exact ⟨b "A", [], rfl, id_of (by decide), by decide, fun h => absurd h (by decide)⟩
  quals := .inl rfl
  stat := fun _ => rfl
  post := by simp [exG]
  body := by
    intro v hv
    simp only [exG, Option.some.injEq] at hv
    subst hv
    exact bal_plain (by decide)

private def exItems : List Item :=
  [.fn exF, .fn exG, .label (b "private"), .data (words ["int"]) (words ["int"]) false (b "x") (some (words ["1"]))]

private theorem ex_ok : (∀ i ∈ exItems, i.Ok) ∧ (⟨b "n::", b "A", []⟩ : Class).Ok exItems := by
  constructor
  · intro i hi
    simp only [exItems, List.mem_cons, List.not_mem_nil, or_false] at hi
    rcases hi with rfl | rfl | rfl | rfl
    · exact exF_ok
    · exact exG_ok
    · show _ ∈ _; decide
    · refine ⟨.word (mkWord (by decide) (by decide) (by decide)) .nil, mkWord (by decide) (by decide) (by decide), by decide, ?_⟩
      intro v hv; cases hv; decide
  · exact ⟨.inr ⟨b "n", by decide⟩, by decide, id_of (by decide), .inl rfl⟩

example : declarations ⟨b "n::A::", true⟩ false (exItems.flatMap Item.toks ++ [b "}"]) =
    some [b "const typename std :: string &(n::A::*TmpMemPtr_f1)(int a , std :: map < int , int > m ) const=&n::A::f;",
      b " B < int  >(*TmpMemPtr_f2)(A)=&n::A::f;"] := by decide +kernel

example := C81_declared_partial ⟨b "n::", b "A", []⟩ exItems ex_ok.2 ex_ok.1 true false []

example := C81_distinct_partial (b "A") true false exItems (by
  intro f hf
  simp only [exItems, List.mem_cons, Item.fn.injEq, List.not_mem_nil, or_false, reduceCtorEq] at hf
  rcases hf with rfl | rfl
  · exact ⟨[], 102, rfl, by decide⟩
  · exact ⟨[], 102, rfl, by decide⟩)

/-! ### What goes wrong -/

private theorem spells_count {s ts} (h : Spells s ts) {c : UInt8} (hc : c ≠ 32) : s.count c = ts.flatten.count c := by
  induction h with
  | nil => rfl
  | space _ ih => rw [List.count_cons_of_ne (Ne.symm hc), ih]
  | tok _ _ _ ih => rw [List.count_append, ih, List.flatten_cons, List.count_append]

private theorem same_count {ty out} (h : SameType ty out) {c : UInt8} (hc : c ∉ b "typename") :
    out.flatten.count c = ty.flatten.count c := by
  rcases h.1 with rfl | ⟨x, q, _, rfl, rfl, _⟩
  · rfl
  · simp [List.count_eq_zero.2 hc]

/-- A character other than the space and those of `typename` occurs as often as it should. -/
private theorem count_member {P text : Str} {n : Str} {k : Nat} {ret args quals : List Str} (h : Want.Is P ⟨n, k, ret, args, .member quals⟩ text)
    {c : UInt8} (hc : c ∉ 32 :: b "typename") :
    text.count c = ret.flatten.count c + args.flatten.count c + (b "(" ++ P ++ b "*" ++ (b "TmpMemPtr_" ++ n ++ dec k) ++ b ")(" ++ b ")" ++
      quals.flatten ++ b "=&" ++ P ++ n ++ b ";").count c := by
  simp only [List.mem_cons, not_or] at hc
  obtain ⟨a, ha, r, out, hr, ho, e⟩ := h
  have hq : (quals.flatMap (32 :: ·)).count c = quals.flatten.count c := by
    clear e ha ho
    induction quals with
    | nil => rfl
    | cons q l ih => rw [List.flatMap_cons, List.flatten_cons, List.count_append, List.count_append, ih, List.count_cons_of_ne (Ne.symm hc.1)]
  rw [e]
  simp only [List.count_append, spells_count ha hc.1, spells_count hr hc.1, same_count ho hc.2, hq, Want.var]
  omega

/-- A return type that ends with `>>` is given that token twice: `B<B<int>> f();` -/
theorem C81_shift_fails :
    ∃ text, declarations ⟨b "A::", false⟩ false (words ["B", "<", "B", "<", "int", ">>", "f", "()", ";", "}"]) = some [text] ∧
      ¬ Want.Is (b "A::") ⟨b "f", 1, words ["B", "<", "B", "<", "int", ">>"], words [], .member (words [])⟩ text := by
  refine ⟨b " B < B < int >>  >>(A::*TmpMemPtr_f1)()=&A::f;", by decide +kernel, fun h => ?_⟩
  have := count_member h (c := 62) (by decide)
  exact absurd this (by decide +kernel)

/-- A default argument is kept from a comma on, unless that is in braces: `void f(int a=g(1,2), int b);` -/
theorem C81_comma_fails :
    ∃ text, declarations ⟨b "A::", false⟩ false (words ["void", "f", "(", "int", "a", "=", "g", "(", "1", ",", "2", ")", ",", "int", "b", ")", ";", "}"]) = some [text] ∧
      ¬ Want.Is (b "A::") ⟨b "f", 1, words ["void"], words ["int", "a", ",", "int", "b"], .member (words [])⟩ text := by
  refine ⟨b " void(A::*TmpMemPtr_f1)(int a , 2 ) , int b )=&A::f;", by decide +kernel, fun h => ?_⟩
  have := count_member h (c := 50) (by decide)
  exact absurd this (by decide +kernel)

/-- So is one in a string: `void f(B s=",");` -/
theorem C81_string_fails :
    ∃ text, declarations ⟨b "A::", false⟩ false (words ["void", "f", "(", "B", "s", "=", "\",\"", ")", ";", "}"]) = some [text] ∧
      ¬ Want.Is (b "A::") ⟨b "f", 1, words ["void"], words ["B", "s"], .member (words [])⟩ text := by
  refine ⟨b " void(A::*TmpMemPtr_f1)(B s ,\" )=&A::f;", by decide +kernel, fun h => ?_⟩
  have := count_member h (c := 34) (by decide)
  exact absurd this (by decide +kernel)

/-- Parentheses with a space between them get another: `void f( );` -/
theorem C81_space_fails :
    ∃ text, declarations ⟨b "A::", false⟩ false (words ["void", "f", "(", ")", ";", "}"]) = some [text] ∧
      ¬ Want.Is (b "A::") ⟨b "f", 1, words ["void"], words [], .member (words [])⟩ text := by
  refine ⟨b " void(A::*TmpMemPtr_f1)(()=&A::f;", by decide +kernel, fun h => ?_⟩
  have := count_member h (c := 40) (by decide)
  exact absurd this (by decide +kernel)

/-- So do arguments that begin with `::`: `void f(::B b);` -/
theorem C81_global_fails :
    ∃ text, declarations ⟨b "A::", false⟩ false (words ["void", "f", "(", "::", "B", "b", ")", ";", "}"]) = some [text] ∧
      ¬ Want.Is (b "A::") ⟨b "f", 1, words ["void"], words ["::", "B", "b"], .member (words [])⟩ text := by
  refine ⟨b " void(A::*TmpMemPtr_f1)(( :: B b )=&A::f;", by decide +kernel, fun h => ?_⟩
  have := count_member h (c := 40) (by decide)
  exact absurd this (by decide +kernel)

/-- Or with dots: `void f(...);` -/
theorem C81_variadic_fails :
    ∃ text, declarations ⟨b "A::", false⟩ false (words ["void", "f", "(", "...", ")", ";", "}"]) = some [text] ∧
      ¬ Want.Is (b "A::") ⟨b "f", 1, words ["void"], words ["..."], .member (words [])⟩ text := by
  refine ⟨b " void(A::*TmpMemPtr_f1)(( ... )=&A::f;", by decide +kernel, fun h => ?_⟩
  have := count_member h (c := 40) (by decide)
  exact absurd this (by decide +kernel)

/-- Of a pointer to a function as first argument, and of those after it, a part is left: `void f(int (*g)(int), int);` -/
theorem C81_callback_fails :
    ∃ text, declarations ⟨b "A::", false⟩ false (words ["void", "f", "(", "int", "(", "*", "g", ")", "(", "int", ")", ",", "int", ")", ";", "}"]) = some [text] ∧
      ¬ Want.Is (b "A::") ⟨b "f", 1, words ["void"], words ["int", "(", "*", "g", ")", "(", "int", ")", ",", "int"], .member (words [])⟩ text := by
  refine ⟨b " void(A::*TmpMemPtr_f1)(int ( * g )=&A::f;", by decide +kernel, fun h => ?_⟩
  have := count_member h (c := 44) (by decide)
  exact absurd this (by decide +kernel)

/-- Reference qualifiers are lost: `int f() &;` -/
theorem C81_ref_fails :
    ∃ text, declarations ⟨b "A::", false⟩ false (words ["int", "f", "()", "&", ";", "}"]) = some [text] ∧
      ¬ Want.Is (b "A::") ⟨b "f", 1, words ["int"], words [], .member (words ["&"])⟩ text := by
  refine ⟨b " int(A::*TmpMemPtr_f1)()=&A::f;", by decide +kernel, fun h => ?_⟩
  have := count_member h (c := 38) (by decide)
  exact absurd this (by decide +kernel)

/-- So are return types at the end: `auto f() -> int;` -/
theorem C81_trailing_fails :
    ∃ text, declarations ⟨b "A::", false⟩ false (words ["auto", "f", "()", "->", "int", ";", "}"]) = some [text] ∧
      ¬ Want.Is (b "A::") ⟨b "f", 1, words ["int"], words [], .member (words [])⟩ text := by
  refine ⟨b " auto(A::*TmpMemPtr_f1)()=&A::f;", by decide +kernel, fun h => ?_⟩
  have := count_member h (c := 117) (by decide)
  exact absurd this (by decide +kernel)

/-- `typename` is put in front of an unqualified template if an argument is qualified: `B<std::C> f();` -/
theorem C81_typename_fails :
    ∃ text, declarations ⟨b "A::", false⟩ false (words ["B", "<", "std", "::", "C", ">", "f", "()", ";", "}"]) = some [text] ∧
      ¬ Want.Is (b "A::") ⟨b "f", 1, words ["B", "<", "std", "::", "C", ">"], [], .member []⟩ text := by
  refine ⟨b "typename B < std :: C  >(A::*TmpMemPtr_f1)()=&A::f;", by decide +kernel, fun h => ?_⟩
  obtain ⟨a, ha, r, out, hr, ho, e⟩ := h
  have hout : out = words ["B", "<", "std", "::", "C", ">"] := by
    rcases ho.1 with h | ⟨c, q, hc, hq, _, q1, q2, rfl, h⟩
    · exact h
    · exfalso
      rcases hc with rfl | rfl
      · have hb : words ["B", "<", "std", "::", "C", ">"] = [b "B", b "<", b "std", b "::", b "C", b ">"] := rfl
        simp only [hb, List.nil_append] at hq
        rcases h with rfl | ⟨t, _, rfl⟩ | ⟨t, x, _, hx, rfl⟩
        · simp at hq; exact absurd hq.1 (by decide)
        · simp at hq; exact absurd hq.2.1 (by decide)
        · have h3 := congrArg List.length hq
          simp at h3
          match x, hx, h3 with
          | [], _, _ => simp at hq; exact absurd hq.2.1 (by decide)
          | [y], _, _ => simp at hq; exact absurd hq.2.2.1 (by decide)
          | [y, z], _, _ => simp at hq; exact absurd hq.2.2.2.1 (by decide)
          | y :: z :: w :: x, _, h3 => simp at h3; omega
      · simp [words] at hq; exact absurd hq.1 (by decide)
  subst hout
  have h1 := spells_count hr (c := 121) (by decide)
  have h2 := spells_count ha (c := 121) (by decide)
  have h3 := congrArg (List.count 121) e
  simp only [List.count_append, h1, h2, Want.var] at h3
  exact absurd h3 (by decide +kernel)

/-- In a template that is mentioned twice among the arguments (see C44): `void f(A a, A b);` in `A<T>`. -/
theorem C81_template_fails :
    ∃ text, declarations ⟨b "A<T>::", false⟩ false (words ["void", "f", "(", "A", "a", ",", "A", "c", ")", ";", "}"]) = some [text] ∧
      ¬ Want.Is (b "A<T>::") ⟨b "f", 1, words ["void"], words ["A<T>", "a", ",", "A<T>", "c"], .member []⟩ text := by
  refine ⟨b " void(A<T>::*TmpMemPtr_f1)(A<T> a , AA<T> c )=&A<T>::f;", by decide +kernel, fun h => ?_⟩
  have := count_member h (c := 65) (by decide)
  exact absurd this (by decide +kernel)

/-- The eleventh `f` and the first `f1` have the same variable. -/
theorem C81_names_fails :
    ¬ ((wants (b "A") false false [] (List.replicate 11 (.fn ⟨[], [], false, false, b "f", [], [], [], none⟩) ++
      [.fn ⟨[], [], false, false, b "f1", [], [], [], none⟩])).map Want.var).Nodup := by
  decide +kernel

end Verif.Over
