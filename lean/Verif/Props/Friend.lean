import Verif.Friend
import Verif.DeclFacts
import Verif.Props.Tok
import Verif.Props.Scan
/-
C83: insert-friend puts an access declaration into the classes that need one.
-/
namespace Verif.Friend
open Verif.Tok Verif.Tok.C63 Verif.Decl

namespace C83

/-- A part of a header as far as it matters here.  A class definition is a `cls`, followed by the parts that make up its members. -/
inductive Item
  /-- any token but `template`, `class`, `struct`, `friend` -/
  | word (t : Str)
  /-- `friend t`, in particular `friend class` -/
  | friend (t : Str)
  /-- `class name t`, where `t` begins neither a definition nor template arguments -/
  | decl (key name t : Str)
  /-- `struct {` -/
  | unnamed (key t : Str)
  /-- `template < ps > t`, not a class -/
  | tmpl (ps : List Scan.TParam) (t : Str)
  /-- `template l ;`, an explicit instantiation -/
  | inst (l : List Str)
  /-- `class name bases {` -/
  | cls (name : Str) (bases : List Str)
  /-- `struct name bases { body }` without private parts -/
  | pub (name : Str) (bases body : List Str)
  /-- `struct name bases { pre private :` -/
  | priv (name : Str) (bases pre : List Str) (label : Str)

/-- The tokens of a part. -/
def Item.toks : Item → List Str
  | .word t => [t]
  | .friend t => [b "friend", t]
  | .decl key name t => [key, name, t]
  | .unnamed key t => [key, t]
  | .tmpl ps t => b "template" :: b "<" :: (Scan.commas Scan.TParam.text ps ++ [b ">", t])
  | .inst l => b "template" :: (l ++ [b ";"])
  | .cls name bases => b "class" :: name :: (bases ++ [b "{"])
  | .pub name bases body => b "struct" :: name :: (bases ++ b "{" :: (body ++ [b "}"]))
  | .priv name bases pre label => b "struct" :: name :: (bases ++ b "{" :: (pre ++ [label, b ":"]))

/-- The class to which access is to be given behind the part. -/
def Item.needs : Item → Option Str
  | .cls name _ => some name
  | .priv name _ _ _ => some name
  | _ => none

/-- No token is `private` or `protected` with a colon behind it. -/
def NoLabel (l : List Str) : Prop := ¬ [b "private", b ":"] <:+: l ∧ ¬ [b "protected", b ":"] <:+: l

def Plain (t : Str) : Prop := t ∉ [b "template", b "class", b "struct", b "friend"]

/-- The list of base classes, or nothing. -/
def Bases (l : List Str) : Prop := l = [] ∨ ∃ u, l = b ":" :: u ∧ b "{" ∉ u

/-- The tokens of an explicit instantiation up to its semicolon; semicolons may be within braces. -/
inductive Inst : List Str → Prop
  | nil : Inst []
  | tok {t c} : t ≠ b ";" → t ≠ b "{" → t ≠ b "}" → Inst c → Inst (t :: c)
  | nest {a c} : Bal (b "{") (b "}") a → Inst c → Inst (b "{" :: (a ++ b "}" :: c))

def Letter (c : UInt8) : Prop := 97 ≤ c ∧ c ≤ 122 ∨ 65 ≤ c ∧ c ≤ 90

/-- A word that begins with a letter. -/
def Ident (n : Str) : Prop := (∃ c, n.head? = some c ∧ Letter c) ∧ ∀ c ∈ n, Word c

def Item.Ok : Item → Prop
  | .word t => Plain t
  | .friend t => t ≠ b "template" ∧ t ≠ b "friend"
  | .decl key name t => (key = b "class" ∨ key = b "struct") ∧ Ident name ∧ Plain t ∧ starts ":{" t = false ∧ t ≠ b "<"
  | .unnamed key t => (key = b "class" ∨ key = b "struct") ∧ ∀ c, t.head? = some c → ¬ Letter c ∧ c ≠ 95
  | .tmpl ps t => (∀ p ∈ ps, p.Ok) ∧ Plain t
  | .inst l => l ≠ [] ∧ l.head? ≠ some (b "<") ∧ Inst l
  | .cls name bases => Ident name ∧ Bases bases
  | .pub name bases body => Ident name ∧ Bases bases ∧ Bal (b "{") (b "}") body ∧ NoLabel body ∧ b "class" ∉ body
  | .priv name bases pre label => Ident name ∧ Bases bases ∧ Bal (b "{") (b "}") pre ∧ NoLabel pre ∧ b "class" ∉ pre ∧
      (label = b "private" ∨ label = b "protected")

/-- The tokens of the part when access has been given. -/
def Item.result (i : Item) : List Str :=
  i.toks ++ match i.needs with
    | some name => [b "CLASSDESC_ACCESS", b "(", name, b ")", b ";"]
    | none => []

/-- The tokens, each with a mark that says whether white space must follow it. -/
def Item.marked (i : Item) : List (Str × Bool) := i.toks.dropLast.map (·, false) ++ (i.toks.getLast?.map (·, i.needs.isSome)).toList

/-- A text and its tokens, as `Tok.C63.Doc`; white space directly behind the marked tokens. -/
inductive Layout : List (Str × Bool) → Str → Prop
  | nil {s} : Sep s → Layout [] s
  | cons {s l c r ts m} : Sep s → Lexeme l c → (m = true → c = 32 ∨ 9 ≤ c ∧ c ≤ 13) → Layout ts (c :: r) →
      Layout ((l, m) :: ts) (s ++ (l ++ c :: r))
  | pragma {s t r ts} : Sep s → 10 ∉ t → 47 ∉ t → b "pragma" <+: t.filter (· != 13) → Layout ts (10 :: r) →
      Layout ((35 :: t.filter (· != 13), false) :: ts) (s ++ (35 :: (t ++ 10 :: r)))

end C83
open C83

/-! ### The text -/

/-- `Layout` with the lines inserted behind tokens. -/
private inductive Lay : List (Str × Option Str) → Str → Prop
  | nil {s} : Sep s → Lay [] s
  | cons {s l c r ts m} : Sep s → Lexeme l c → (∀ n, m = some n → (c = 32 ∨ 9 ≤ c ∧ c ≤ 13) ∧ n ≠ [] ∧ ∀ x ∈ n, Word x) → Lay ts (c :: r) →
      Lay ((l, m) :: ts) (s ++ (l ++ c :: r))
  | pragma {s t r ts} : Sep s → 10 ∉ t → 47 ∉ t → b "pragma" <+: t.filter (· != 13) → Lay ts (10 :: r) →
      Lay ((35 :: t.filter (· != 13), none) :: ts) (s ++ (35 :: (t ++ 10 :: r)))

private def line (n : Str) : Str := b "\nCLASSDESC_ACCESS(" ++ n ++ b ");\n"

/-- What is printed, by the number of tokens left. -/
private def evs : List (Str × Option Str) → Out
  | [] => []
  | x :: xs => (match x.2 with | some n => [(xs.length, line n)] | none => []) ++ evs xs

private def toksOf : List (Str × Option Str) → List Str
  | [] => []
  | x :: xs => x.1 :: ((match x.2 with | some n => [b "CLASSDESC_ACCESS", b "(", n, b ")", b ";"] | none => []) ++ toksOf xs)

private theorem Lay.doc {xs : List (Str × Option Str)} {s : Str} (h : Lay xs s) : Doc (xs.map (·.1)) s := by
  induction h with
  | nil h => exact .nil h
  | cons h1 h2 _ _ ih => exact .cons h1 h2 ih
  | pragma h1 h2 h3 h4 _ ih => exact .pragma h1 h2 h3 h4 ih

/-- Lines by the number of characters written, which are all there when `L` have been. -/
private def place (L : Nat) : List (Str × Option Str) → List Nat → Out
  | x :: xs, k :: ks => (match x.2 with | some n => [(L - (k - 1), line n)] | none => []) ++ place L xs ks
  | _, _ => []

private theorem place_eq (L : Nat) : ∀ (xs : List (Str × Option Str)) (ks pre : List Nat), ks.length = xs.length →
    (evs xs).map (fun x => (L - ((pre ++ ks).getD ((pre ++ ks).length - 1 - x.1) 0 - 1), x.2)) = place L xs ks := by
  intro xs
  induction xs with
  | nil => intro ks pre h; cases ks <;> simp_all [evs, place]
  | cons x xs ih =>
    intro ks pre h
    obtain ⟨t, m⟩ := x
    cases ks with
    | nil => simp at h
    | cons k ks =>
      have h' : ks.length = xs.length := by simpa using h
      have := ih ks (pre ++ [k]) h'
      rw [List.append_assoc, List.singleton_append] at this
      rw [evs, place, List.map_append, this]
      congr 1
      cases m with
      | none => rfl
      | some n =>
        have e : (pre ++ k :: ks).length - 1 - xs.length = pre.length := by simp; omega
        simp only [List.map_cons, List.map_nil, e]
        simp

private theorem splice_app (E : Out) : ∀ (a : List Str) (i : Nat) (r : List Str), (∀ x ∈ E, i + a.length ≤ x.1) →
    splice E i (a ++ r) = a.flatten ++ splice E (i + a.length) r := by
  intro a
  induction a with
  | nil => intro i r _; simp
  | cons e a ih =>
    intro i r h
    have h0 : E.filter (fun x => x.1 == i) = [] := by
      rw [List.filter_eq_nil_iff]
      intro x hx
      have := h x hx
      simp only [List.length_cons] at this
      simp; omega
    rw [List.cons_append, splice, h0]
    rw [ih (i + 1) r (fun x hx => by have := h x hx; simp only [List.length_cons] at this; omega)]
    simp [Nat.add_assoc, Nat.add_comm 1]

private theorem splice_skip (x : Nat × Str) (E : Out) : ∀ (r : List Str) (i : Nat), x.1 < i → splice (x :: E) i r = splice E i r := by
  intro r
  induction r with
  | nil =>
    intro i h
    have : (x.1 == i) = false := by simp; omega
    simp [splice, List.filter_cons, this]
  | cons e r ih =>
    intro i h
    have : (x.1 == i) = false := by simp; omega
    simp only [splice, List.filter_cons, this, ih (i + 1) (by omega)]
    simp

private theorem splice_here (n : Nat) (t : Str) (E : Out) (h : ∀ x ∈ E, n < x.1) (r : List Str) :
    splice ((n, t) :: E) n r = t ++ splice E n r := by
  have h0 : E.filter (fun x => x.1 == n) = [] := by
    rw [List.filter_eq_nil_iff]
    intro x hx
    have := h x hx
    simp; omega
  cases r with
  | nil => simp [splice, List.filter_cons, h0]
  | cons e r => simp only [splice, List.filter_cons, beq_self_eq_true, if_true, h0, splice_skip (n, t) E r (n + 1) (by simp)]; simp

private theorem space_not_lexeme {l : Str} {c d : UInt8} {r u : Str} (hl : Lexeme l d) (hc : c = 32 ∨ 9 ≤ c ∧ c ≤ 13)
    (h : c :: u = l ++ r) : False := by
  have hne := lexeme_ne hl
  cases l with
  | nil => exact hne rfl
  | cons x l =>
    have hx : c = x := by simpa using (List.cons.inj h).1
    subst hx
    cases hl with
    | word _ h2 _ =>
      have := h2 c (.head _)
      unfold Word at this
      grind
    | op h1 _ =>
      have : ∀ o ∈ ops, ∀ y ∈ o.head?, ¬ (y = 32 ∨ 9 ≤ y ∧ y ≤ 13) := by decide +kernel
      exact this _ h1 c (by simp) hc
    | quoted h1 _ => rcases h1 with rfl | rfl <;> revert hc <;> decide

private theorem sep_space {c d : UInt8} {u : Str} (hc : c = 32 ∨ 9 ≤ c ∧ c ≤ 13) (hd : d = 32 ∨ 9 ≤ d ∧ d ≤ 13) (h : Sep (c :: u)) :
    Sep (d :: u) := by
  generalize e : c :: u = v at h
  cases h with
  | nil => simp at e
  | space _ h2 => cases e; exact .space hd h2
  | block h1 h2 =>
    rw [show b "/*" = [47, 42] by decide] at e
    cases e; exact absurd hc (by decide)
  | line h1 h2 =>
    rw [show b "//" = [47, 47] by decide] at e
    cases e; exact absurd hc (by decide)
  | control h1 h2 h3 => cases e; exact absurd hc (by decide)

/-- The white space in front of the first token does not matter. -/
private theorem doc_space {ts : List Str} {c d : UInt8} {u : Str} (hc : c = 32 ∨ 9 ≤ c ∧ c ≤ 13) (hd : d = 32 ∨ 9 ≤ d ∧ d ≤ 13)
    (h : Doc ts (c :: u)) : Doc ts (d :: u) := by
  generalize e : c :: u = v at h
  cases h with
  | nil hs => subst e; exact .nil (sep_space hc hd hs)
  | @cons s l x r ts hs hl h =>
    cases s with
    | nil => exact (space_not_lexeme hl hc e).elim
    | cons y s =>
      obtain ⟨rfl, rfl⟩ := List.cons.inj e
      exact Doc.cons (s := d :: s) (sep_space hc hd hs) hl h
  | @pragma s t r ts hs h1 h2 h3 h =>
    cases s with
    | nil =>
      obtain ⟨rfl, _⟩ := List.cons.inj e
      exact absurd hc (by decide)
    | cons y s =>
      obtain ⟨rfl, rfl⟩ := List.cons.inj e
      exact Doc.pragma (s := d :: s) (sep_space hc hd hs) h1 h2 h3 h

private theorem word_not {c : UInt8} (h : Word c) : c ≠ 40 ∧ c ≠ 41 ∧ c ≠ 92 ∧ c ≠ 91 ∧ c ≠ 10 := by
  unfold Word at h
  refine ⟨?_, ?_, ?_, ?_, ?_⟩ <;> (rintro rfl; revert h; decide)

/-- The inserted line. -/
private theorem doc_line {ts : List Str} {c : UInt8} {u n : Str} (hc : c = 32 ∨ 9 ≤ c ∧ c ≤ 13) (hn : n ≠ []) (hw : ∀ x ∈ n, Word x)
    (h : Doc ts (c :: u)) : Doc ([b "CLASSDESC_ACCESS", b "(", n, b ")", b ";"] ++ ts) (c :: (line n ++ u)) := by
  have e : c :: (line n ++ u) = [c, 10] ++ (b "CLASSDESC_ACCESS" ++ 40 :: (n ++ 41 :: 59 :: 10 :: u)) := by
    rw [line, show b "\nCLASSDESC_ACCESS(" = 10 :: (b "CLASSDESC_ACCESS" ++ [40]) by decide, show b ");\n" = [41, 59, 10] by decide]
    simp
  rw [e]
  have w : ∀ x ∈ b "CLASSDESC_ACCESS", Word x := by unfold Word; decide +kernel
  have h5 : Doc ts (10 :: u) := doc_space hc (by decide) h
  have h4 : Doc (b ";" :: ts) (59 :: 10 :: u) := Doc.cons (s := []) (l := b ";") .nil (.op (by decide +kernel) (by decide +kernel)) h5
  have h3 : Doc (b ")" :: b ";" :: ts) (41 :: 59 :: 10 :: u) :=
    Doc.cons (s := []) (l := b ")") .nil (.op (by decide +kernel) (by decide +kernel)) h4
  have h2 : Doc (n :: b ")" :: b ";" :: ts) (n ++ 41 :: 59 :: 10 :: u) :=
    Doc.cons (s := []) .nil (.word hn hw (by unfold Word; decide)) h3
  obtain ⟨x, n', rfl⟩ : ∃ x n', n = x :: n' := by cases n with | nil => exact absurd rfl hn | cons x n' => exact ⟨x, n', rfl⟩
  have hx := word_not (hw x (.head _))
  have h1 : Doc (b "(" :: (x :: n') :: b ")" :: b ";" :: ts) (40 :: (x :: n' ++ 41 :: 59 :: 10 :: u)) := by
    refine Doc.cons (s := []) (l := b "(") .nil (.op (by decide +kernel) ?_) h2
    intro y hy hp
    have : ∀ y ∈ b "/*" :: b "//" :: ops, ∀ z, [40, z] <+: y → z = 41 := by
      intro y hy z hz
      have key : ∀ y ∈ b "/*" :: b "//" :: ops, y.head? = some 40 → y.tail.head? = none ∨ y.tail.head? = some 41 := by decide +kernel
      obtain ⟨v, rfl⟩ := hz
      have := key _ hy rfl
      simpa using this
    exact hx.2.1 (this y hy x hp)
  exact Doc.cons (.space hc (.space (by decide) .nil)) (.word (by decide) w (by unfold Word; decide)) h1

private theorem pair_app {x y : UInt8} {a c : Str} (h : [x, y] <:+: a ++ c) :
    [x, y] <:+: a ∨ [x, y] <:+: c ∨ a.getLast? = some x ∧ c.head? = some y := by
  obtain ⟨u, v, e⟩ := h
  induction a generalizing u with
  | nil => exact .inr (.inl ⟨u, v, by simpa using e⟩)
  | cons z a ih =>
    cases u with
    | nil =>
      simp only [List.nil_append, List.cons_append, List.cons.injEq] at e
      obtain ⟨rfl, e⟩ := e
      cases a with
      | nil => right; right; refine ⟨rfl, ?_⟩; rw [List.nil_append] at e; rw [← e]; rfl
      | cons w a =>
        simp only [List.cons_append, List.cons.injEq] at e
        obtain ⟨rfl, e⟩ := e
        exact .inl ⟨[], a, rfl⟩
    | cons w u =>
      simp only [List.cons_append, List.cons.injEq] at e
      obtain ⟨rfl, e⟩ := e
      rcases ih u e with ⟨p, q, rfl⟩ | h | ⟨h1, h2⟩
      · exact .inl ⟨w :: p, q, by simp⟩
      · exact .inr (.inl h)
      · right; right
        refine ⟨?_, h2⟩
        cases a with
        | nil => simp at h1
        | cons w' a => rwa [List.getLast?_cons_cons]

private theorem place_pos {L p m : Nat} (hp : p + m ≤ L + 1) : ∀ (ts : List (Str × Option Str)) (ks : List Nat), (∀ k ∈ ks, 1 ≤ k ∧ k < m) →
    ∀ x ∈ place L ts ks, p < x.1 := by
  intro ts
  induction ts with
  | nil => intro ks _ x hx; simp [place] at hx
  | cons t ts ih =>
    intro ks hk x hx
    cases ks with
    | nil => simp [place] at hx
    | cons k ks =>
      rw [place] at hx
      rcases List.mem_append.1 hx with hx | hx
      · obtain ⟨_, m⟩ := t
        cases m with
        | none => simp at hx
        | some n =>
          have hx : x = (L - (k - 1), line n) := by simpa using hx
          have := hk k (.head _)
          rw [hx]
          simp only
          omega
      · exact ih ks (fun k hk' => hk k (.tail _ hk')) x hx

private theorem plain_insert {a r o mid : Str} {c : UInt8} (h : Tok.C63.Plain (a ++ c :: r)) (ho : Tok.C63.Plain (c :: o))
    (hm : mid = [] ∨ (c ≠ 92 ∧ c ≠ 91) ∧ (∀ x ∈ mid, x ≠ 92 ∧ x ≠ 91)) : Tok.C63.Plain (a ++ c :: (mid ++ o)) := by
  have e : a ++ c :: (mid ++ o) = (a ++ [c]) ++ (mid ++ o) := by simp
  have noPair : ∀ x y : UInt8, (x = 92 ∨ x = 91) → ¬ [x, y] <:+: a ++ c :: r → ¬ [x, y] <:+: c :: o → ¬ [x, y] <:+: a ++ c :: (mid ++ o) := by
    intro x y hx h1 h2 h3
    rw [e] at h3
    rcases pair_app h3 with q | q | ⟨q1, q2⟩
    · exact h1 (q.trans ⟨[], r, by simp⟩)
    · rcases pair_app q with q | q | ⟨q1, _⟩
      · rcases hm with rfl | hm
        · obtain ⟨u, v, q⟩ := q; simp at q
        · obtain ⟨u, v, rfl⟩ := q
          have := hm.2 x (by simp)
          rcases hx with rfl | rfl
          · exact this.1 rfl
          · exact this.2 rfl
      · exact h2 (q.trans ⟨[c], [], by simp⟩)
      · rcases hm with rfl | hm
        · simp at q1
        · have := hm.2 x (List.mem_of_getLast? q1)
          rcases hx with rfl | rfl
          · exact this.1 rfl
          · exact this.2 rfl
    · have q1 : c = x := by simpa using q1
      subst q1
      rcases hm with rfl | hm
      · refine h2 ?_
        cases o with
        | nil => simp at q2
        | cons z o =>
          have : z = y := by simpa using q2
          subst this
          exact ⟨[], o, rfl⟩
      · rcases hx with rfl | rfl
        · exact hm.1.1 rfl
        · exact hm.1.2 rfl
  refine ⟨noPair 92 10 (.inl rfl) h.cont ho.cont, noPair 91 91 (.inr rfl) h.attr ho.attr, ?_⟩
  have hl := ho.last
  cases o with
  | cons z o =>
    have q : ∀ w : Str, (w ++ z :: o).getLast? = (c :: z :: o).getLast? := by intro w; simp [List.getLast?_append, List.getLast?_cons]
    have : (a ++ c :: (mid ++ z :: o)).getLast? = (c :: z :: o).getLast? := by
      rw [← q (a ++ c :: mid)]; simp
    rw [this]; exact hl
  | nil =>
    rw [List.append_nil]
    rcases hm with rfl | hm
    · simpa using hl
    · cases hmid : mid.getLast? with
      | none =>
        have : mid = [] := by simpa using hmid
        subst this; simpa using hl
      | some x =>
        have hx := hm.2 x (List.mem_of_getLast? hmid)
        have : (a ++ c :: mid).getLast? = some x := by
          rw [List.getLast?_append, List.getLast?_cons, hmid]; simp
        rw [this]
        exact ⟨by simpa using hx.1, by simpa using hx.2⟩

private theorem plain_suffix {a c : Str} (h : Tok.C63.Plain (a ++ c)) (hc : c ≠ []) : Tok.C63.Plain c := by
  refine ⟨fun q => h.cont (q.trans (List.suffix_append a c).isInfix), fun q => h.attr (q.trans (List.suffix_append a c).isInfix), ?_⟩
  have := h.last
  rw [List.getLast?_append] at this
  cases hl : c.getLast? with
  | none => simp at hl; exact absurd hl hc
  | some x => rw [hl] at this; simpa using this

private theorem singles (l : Str) : (l.map fun c => [c]).flatten = l := by
  induction l with
  | nil => rfl
  | cons c l ih => simp [ih]

/-- Reading the text and writing it with the lines. -/
private theorem lay_run {xs : List (Str × Option Str)} {s : Str} (h : Lay xs s) : Tok.C63.Plain s →
    ∃ ks : List Nat, ks.length = xs.length ∧ (∀ n, s.length < n → marks .throw n s = ks) ∧ (∀ k ∈ ks, 1 ≤ k ∧ k < s.length) ∧
      ∀ i L, i + s.length = L → ∃ out, splice (place L xs ks) i (s.map fun c => [c]) = out ∧ Doc (toksOf xs) out ∧
        Tok.C63.Plain out ∧ out.head? = s.head? := by
  induction h with
  | @nil s hs =>
    intro hp
    refine ⟨[], rfl, ?_, by simp, ?_⟩
    · intro n hn
      obtain ⟨n, rfl⟩ : ∃ m, n = m + 1 := ⟨n - 1, by omega⟩
      rw [marks, next_eof hs]
    · intro i L _
      refine ⟨s, ?_, .nil hs, hp, rfl⟩
      have := splice_app [] (s.map fun c => [c]) i [] (by simp)
      rw [List.append_nil, singles] at this
      simpa [place, splice] using this
  | @cons s l c r ts m hs hl hm _ ih =>
    intro hp
    have hl1 : 0 < l.length := List.length_pos_iff.2 (lexeme_ne hl)
    obtain ⟨ks, h1, h2, h3, h4⟩ := ih (plain_suffix (a := s ++ l) (by rwa [List.append_assoc]) (by simp))
    refine ⟨(c :: r).length :: ks, by simp [h1], ?_, ?_, ?_⟩
    · intro n hn
      obtain ⟨n, rfl⟩ : ∃ m, n = m + 1 := ⟨n - 1, by omega⟩
      rw [marks, next_cons hs hl]
      simp only
      rw [h2 n (by simp at hn ⊢; omega)]
    · intro k hk
      rcases List.mem_cons.1 hk with rfl | hk
      · simp; omega
      · have := h3 k hk
        simp at this ⊢; omega
    · intro i L hL
      obtain ⟨o, e, hd, hpo, hh⟩ := h4 (i + s.length + l.length) L (by simp at hL ⊢; omega)
      have hL' : i + (s.length + (l.length + (r.length + 1))) = L := by simpa using hL
      have hE2 : ∀ x ∈ place L ts ks, i + s.length + l.length + 1 < x.1 := by
        exact place_pos (by simp; omega) ts ks h3
      rw [show (c :: r).map (fun c => [c]) = [[c]] ++ r.map fun c => [c] from rfl,
        splice_app _ [[c]] _ _ (fun x hx => by have := hE2 x hx; simp; omega)] at e
      simp only [List.flatten_cons, List.flatten_nil, List.append_nil, List.length_cons, List.length_nil, List.singleton_append] at e
      obtain ⟨o', rfl⟩ : ∃ o', o = c :: o' := ⟨_, e.symm⟩
      have e : splice (place L ts ks) (i + s.length + l.length + (0 + 1)) (r.map fun c => [c]) = o' := (List.cons.inj e).2
      have hpos : L - ((c :: r).length - 1) = i + s.length + l.length + 1 := by simp; omega
      have hsplit : (s ++ (l ++ c :: r)).map (fun c => [c]) = (s ++ (l ++ [c])).map (fun c => [c]) ++ r.map fun c => [c] := by simp
      have hhead : ∀ o2 : Str, (s ++ (l ++ c :: o2)).head? = (s ++ (l ++ c :: r)).head? := by
        intro o2; cases s <;> cases l <;> simp
      cases m with
      | none =>
        refine ⟨s ++ (l ++ c :: o'), ?_, Doc.cons hs hl hd, ?_, hhead _⟩
        · rw [place, hsplit, splice_app _ _ _ _ (fun x hx => by
            have := hE2 x (by simpa using hx); simp; omega), singles]
          simp only [List.nil_append, List.length_map, List.length_append, List.length_cons, List.length_nil]
          rw [show i + (s.length + (l.length + (0 + 1))) = i + s.length + l.length + (0 + 1) by omega, e]
          simp
        · have := plain_insert (a := s ++ l) (mid := []) (by rwa [List.append_assoc]) hpo (.inl rfl)
          simpa using this
      | some n =>
        obtain ⟨hc, hn0, hnw⟩ := hm n rfl
        refine ⟨s ++ (l ++ c :: (line n ++ o')), ?_, ?_, ?_, hhead _⟩
        · rw [place, hsplit, splice_app _ _ _ _ (fun x hx => by
            simp only [List.singleton_append, List.mem_cons] at hx
            rcases hx with rfl | hx
            · simp only [hpos]; simp; omega
            · have := hE2 x hx; simp; omega), singles]
          simp only [List.singleton_append, List.length_map, List.length_append, List.length_cons, List.length_nil]
          rw [show i + (s.length + (l.length + (0 + 1))) = i + s.length + l.length + 1 by omega,
            show L - (r.length + 1 - 1) = i + s.length + l.length + 1 by simpa using hpos,
            splice_here _ _ _ hE2, e]
          simp
        · exact Doc.cons hs hl (doc_line hc hn0 hnw hd)
        · have := plain_insert (a := s ++ l) (mid := line n) (by rwa [List.append_assoc]) hpo (.inr ⟨?_, ?_⟩)
          · simpa using this
          · rcases hc with rfl | hc
            · decide
            · constructor <;> (rintro rfl; revert hc; decide)
          · intro x hx
            rw [line] at hx
            rcases List.mem_append.1 hx with hx | hx
            · rcases List.mem_append.1 hx with hx | hx
              · have : ∀ x ∈ b "\nCLASSDESC_ACCESS(", x ≠ 92 ∧ x ≠ 91 := by decide +kernel
                exact this x hx
              · have := word_not (hnw x hx)
                exact ⟨this.2.2.1, this.2.2.2.1⟩
            · have : ∀ x ∈ b ");\n", x ≠ 92 ∧ x ≠ 91 := by decide +kernel
              exact this x hx
  | @pragma s t r ts hs p1 p2 p3 _ ih =>
    intro hp
    obtain ⟨ks, h1, h2, h3, h4⟩ := ih (plain_suffix (a := s ++ 35 :: t) (by simpa using hp) (by simp))
    refine ⟨((10 : UInt8) :: r).length :: ks, by simp [h1], ?_, ?_, ?_⟩
    · intro n hn
      obtain ⟨n, rfl⟩ : ∃ m, n = m + 1 := ⟨n - 1, by omega⟩
      rw [marks, next_pragma hs p1 p2 p3]
      simp only
      rw [h2 n (by simp at hn ⊢; omega)]
    · intro k hk
      rcases List.mem_cons.1 hk with rfl | hk
      · simp; omega
      · have := h3 k hk
        simp at this ⊢; omega
    · intro i L hL
      obtain ⟨o, e, hd, hpo, hh⟩ := h4 (i + s.length + (t.length + 1)) L (by simp at hL ⊢; omega)
      have hL' : i + (s.length + (t.length + (r.length + 1) + 1)) = L := by simpa using hL
      have hE2 : ∀ x ∈ place L ts ks, i + s.length + (t.length + 1) + 1 < x.1 := place_pos (by simp; omega) ts ks h3
      rw [show ((10 : UInt8) :: r).map (fun c => [c]) = [[10]] ++ r.map fun c => [c] from rfl,
        splice_app _ [[10]] _ _ (fun x hx => by have := hE2 x hx; simp; omega)] at e
      simp only [List.flatten_cons, List.flatten_nil, List.append_nil, List.length_cons, List.length_nil, List.singleton_append] at e
      obtain ⟨o', rfl⟩ : ∃ o', o = 10 :: o' := ⟨_, e.symm⟩
      have e : splice (place L ts ks) (i + s.length + (t.length + 1) + (0 + 1)) (r.map fun c => [c]) = o' := (List.cons.inj e).2
      refine ⟨s ++ (35 :: (t ++ 10 :: o')), ?_, Doc.pragma hs p1 p2 p3 hd, ?_, by cases s <;> simp⟩
      · rw [place, show (s ++ (35 :: (t ++ 10 :: r))).map (fun c => [c]) = (s ++ (35 :: (t ++ [10]))).map (fun c => [c]) ++ r.map fun c => [c] by simp,
          splice_app _ _ _ _ (fun x hx => by have := hE2 x (by simpa using hx); simp; omega), singles]
        simp only [List.nil_append, List.length_map, List.length_append, List.length_cons, List.length_nil]
        rw [show i + (s.length + (t.length + (0 + 1) + 1)) = i + s.length + (t.length + 1) + (0 + 1) by omega, e]
        simp
      · have := plain_insert (a := s ++ 35 :: t) (mid := []) (c := 10) (r := r) (by simpa using hp) hpo (.inl rfl)
        simpa using this

/-! ### The tokens -/

private def enter (n cnt : Nat) (out : Out) (bef last : Str) : List Str → Option Out
  | [] => some out
  | t :: r => loop n cnt out ⟨bef, last, t, r⟩

private theorem enter_next (n cnt : Nat) (out : Out) (bef last tok : Str) (k : List Str) :
    (match Rd.next ⟨bef, last, tok, k⟩ with
      | none => some out
      | some r => loop n cnt out r) = enter n cnt out last tok k := by
  cases k <;> rfl

private theorem loop_done {n cnt cnt' : Nat} {out out' : Out} {r : Rd} {bef' last' tok' : Str} {k : List Str} (ht : r.tok ≠ b "template")
    (h : onClass [] cnt out r = .done cnt' out' ⟨bef', last', tok', k⟩) :
    loop (n + 1) cnt out r = enter n cnt' out' last' tok' k := by
  rw [loop]
  simp only [ht, if_false, h]
  exact enter_next ..

private theorem word_run {n cnt : Nat} {out : Out} {bef last t : Str} {k : List Str} (h1 : t ≠ b "template") (h2 : t ≠ b "class" ∧ t ≠ b "struct" ∨ last = b "friend") :
    enter (n + 1) cnt out bef last (t :: k) = enter n cnt out last t k := by
  refine loop_done (r := ⟨bef, last, t, k⟩) (bef' := bef) h1 ?_
  rw [onClass, if_neg]
  rintro ⟨h, h'⟩
  rcases h2 with ⟨h3, h4⟩ | h2
  · rcases h with h | h
    · exact h3 h
    · exact h4 h
  · exact h' h2

private theorem alpha_iff (t : Str) : alphaStart t = true ↔ ∃ c, t.head? = some c ∧ Letter c := by
  cases t <;> simp [alphaStart, Letter]

private theorem plain_facts {t : Str} (h : C83.Plain t) : t ≠ b "template" ∧ t ≠ b "class" ∧ t ≠ b "struct" ∧ t ≠ b "friend" := by
  simpa [C83.Plain] using h

private theorem noLabel_infix {l m : List Str} (h : NoLabel l) (hm : m <:+: l) : NoLabel m :=
  ⟨fun q => h.1 (q.trans hm), fun q => h.2 (q.trans hm)⟩

private theorem noLabel_cons {x : Str} {l : List Str} (h : NoLabel l) (h1 : x ≠ b "private") (h2 : x ≠ b "protected") : NoLabel (x :: l) := by
  constructor
  · rintro ⟨u, v, e⟩
    cases u with
    | nil => exact h1 (List.cons.inj e).1.symm
    | cons y u => exact h.1 ⟨u, v, (List.cons.inj e).2⟩
  · rintro ⟨u, v, e⟩
    cases u with
    | nil => exact h2 (List.cons.inj e).1.symm
    | cons y u => exact h.2 ⟨u, v, (List.cons.inj e).2⟩

private theorem noLabel_pair {x : Str} {l : List Str} (h : NoLabel (x :: b ":" :: l)) : ¬ (x = b "protected" ∨ x = b "private") := by
  rintro (rfl | rfl)
  · exact h.2 ⟨[], l, rfl⟩
  · exact h.1 ⟨[], l, rfl⟩

private theorem scan_step (d d' : Int) (bef last t : Str) (k : List Str) (h1 : ¬ (t = b "}" ∧ ¬ d > 0))
    (h2 : ¬ (t = b ":" ∧ (last = b "protected" ∨ last = b "private")))
    (h3 : d' = (if t = b "}" then (if t = b "{" then d + 1 else d) - 1 else (if t = b "{" then d + 1 else d))) :
    scan d bef last (t :: k) = scan d' last t k := by
  rw [scan, if_neg h1]
  simp only [h2, if_false, h3]

private theorem scan_bal {l : List Str} (h : Bal (b "{") (b "}") l) : ∀ (d : Int) (bef last : Str) (k : List Str), 0 ≤ d → NoLabel (last :: l) →
    ∃ bef' last', scan d bef last (l ++ k) = scan d bef' last' k ∧ last' ∈ last :: l := by
  induction h with
  | nil => intro d bef last k _ _; exact ⟨bef, last, rfl, by simp⟩
  | @tok t c h1 h2 _ _ ih =>
    intro d bef last k hd hn
    obtain ⟨x, y, e, hm⟩ := ih d last t k hd (noLabel_infix hn ⟨[last], [], by simp⟩)
    refine ⟨x, y, ?_, by simp at hm ⊢; rcases hm with h | h <;> simp [h]⟩
    rw [List.cons_append, scan_step d d bef last t _ (fun q => h2 q.1) ?_ (by simp [h1, h2]), e]
    rintro ⟨rfl, q⟩
    exact noLabel_pair hn q
  | @nest a c _ _ ih1 ih2 =>
    intro d bef last k hd hn
    have e0 : b "{" :: (a ++ b "}" :: c) ++ k = b "{" :: (a ++ b "}" :: (c ++ k)) := by simp
    rw [e0, scan_step d (d + 1) bef last _ _ (by rintro ⟨q, _⟩; exact absurd q (by decide)) (by rintro ⟨q, _⟩; exact absurd q (by decide))
      (by rw [if_neg (by decide), if_pos rfl])]
    obtain ⟨x, y, e1, _⟩ := ih1 (d + 1) last (b "{") (b "}" :: (c ++ k)) (by omega) (noLabel_infix hn ⟨[last], b "}" :: c, by simp⟩)
    rw [e1, scan_step (d + 1) d x y _ _ (by rintro ⟨_, q⟩; omega) (by rintro ⟨q, _⟩; exact absurd q (by decide))
      (by rw [if_pos rfl, if_neg (by decide)]; omega)]
    obtain ⟨x2, y2, e2, m2⟩ := ih2 d y (b "}") k hd (noLabel_infix hn ⟨last :: b "{" :: a, [], by simp⟩)
    exact ⟨x2, y2, e2, by simp at m2 ⊢; rcases m2 with h | h <;> simp [h]⟩

private theorem line_eq {n : Str} (hn : Ident n) : dealCommas 0 n = ([], n, 0) := by
  have : ¬ n.contains 44 = true := by
    intro h
    have := hn.2 44 (by simpa using h)
    revert this; unfold Word; decide
  rw [dealCommas, if_neg this]

/-- A class head, up to the brace. -/
private theorem head_run {isStruct : Bool} {out : Out} {bef last name : Str} {bases k : List Str} (hb : Bases bases) :
    ∃ bef' last', insertFriend [] isStruct 0 out ⟨bef, last, name, bases ++ b "{" :: k⟩ =
      match (if isStruct = true then scan 0 last' (b "{") k else some (true, ⟨bef', last', b "{", k⟩)) with
      | none => .stop out
      | some (false, r) => .done 0 out r
      | some (true, r) => .done (dealCommas 0 name).2.2 (out ++ [(r.rest.length, b "\n" ++ (dealCommas 0 name).1 ++
              b "CLASSDESC_ACCESS(" ++ (dealCommas 0 name).2.1 ++ b ");\n")]) r := by
  rcases hb with rfl | ⟨u, rfl, hu⟩
  · refine ⟨last, name, ?_⟩
    have h1 : b "{" ≠ b "<" := by decide
    have h2 : starts ":{" (b "{") = true := by decide
    have h3 : Rd.skipTo ⟨last, name, b "{", k⟩ (· == b "{") = some ⟨last, name, b "{", k⟩ := by
      rw [Rd.skipTo, Decl.skipTo.eq_def]; simp
    simp only [insertFriend, List.nil_append, Rd.next, h1, if_false, h2, if_true, h3]
    rfl
  · obtain ⟨x, y, h3⟩ := skip_some (· == b "{") u last name (b ":") (b "{") k (by simp) (by decide) (by
      intro t ht
      simp only [beq_eq_false_iff_ne]
      rintro rfl
      exact hu ht)
    refine ⟨x, y, ?_⟩
    have h1 : b ":" ≠ b "<" := by decide
    have h2 : starts ":{" (b ":") = true := by decide
    simp only [insertFriend, List.cons_append, Rd.next, h1, if_false, h2, if_true, h3]
    rfl

private def ev (k : Nat) : Option Str → Out
  | some n => [(k, line n)]
  | none => []

private theorem class_run {n : Nat} {out out' : Out} {bef last key name : Str} {rest k : List Str} {bef' last' tok' : Str}
    (hk : key = b "class" ∨ key = b "struct") (hl : last ≠ b "friend") (hi : alphaStart name = true)
    (h : insertFriend [] (key == b "struct") 0 out ⟨last, key, name, rest⟩ = .done 0 out' ⟨bef', last', tok', k⟩) :
    enter (n + 1) 0 out bef last (key :: name :: rest) = enter n 0 out' last' tok' k := by
  refine loop_done (bef' := bef') (show key ≠ _ by rcases hk with rfl | rfl <;> decide) ?_
  rw [onClass, if_pos ⟨hk, hl⟩]
  simp only [Rd.next, hi, if_true, h]

/-- `skipInst` at the first of these tokens. -/
private def skipFrom (br : Int) (bef last : Str) : List Str → Option Rd
  | [] => none
  | t :: r => skipInst br bef last t r

private theorem skip_step (br : Int) (bef last t : Str) (k : List Str) (hk : k ≠ []) (h : ¬ (t = b ";" ∧ ¬ br > 0)) :
    skipFrom br bef last (t :: k) =
      skipFrom (if t = b "}" then (if t = b "{" then br + 1 else br) - 1 else (if t = b "{" then br + 1 else br)) last t k := by
  cases k with
  | nil => exact absurd rfl hk
  | cons u k =>
    rw [skipFrom, skipInst]
    simp only [if_neg h]
    rfl

private theorem skip_bal {a : List Str} (ha : Bal (b "{") (b "}") a) : ∀ (br : Int) (bef last : Str) (k : List Str), 0 < br → k ≠ [] →
    ∃ x y, skipFrom br bef last (a ++ k) = skipFrom br x y k := by
  induction ha with
  | nil => exact fun br bef last k _ _ => ⟨bef, last, rfl⟩
  | @tok t c h1 h2 _ _ ih =>
    intro br bef last k hb hk
    rw [List.cons_append, skip_step br bef last t (c ++ k) (by simp [hk]) (by simp; intro _; omega), if_neg h2, if_neg h1]
    exact ih br last t k hb hk
  | @nest a c _ _ ih1 ih2 =>
    intro br bef last k hb hk
    rw [List.cons_append, List.append_assoc, skip_step br bef last _ _ (by simp) (fun h => absurd h.1 (by decide)), if_neg (by decide), if_pos rfl]
    obtain ⟨x, y, e⟩ := ih1 (br + 1) last (b "{") (b "}" :: c ++ k) (by omega) (by simp)
    rw [e, List.cons_append, skip_step (br + 1) x y _ _ (by simp [hk]) (fun h => absurd h.1 (by decide)), if_pos rfl, if_neg (by decide)]
    obtain ⟨x', y', e'⟩ := ih2 br y (b "}") k hb hk
    exact ⟨x', y', by rw [show br + 1 - 1 = br by omega, e']⟩

private theorem skip_inst (k : List Str) {l : List Str} (hl : Inst l) : ∀ (bef last : Str),
    ∃ x y, skipFrom 0 bef last (l ++ b ";" :: k) = some ⟨x, y, b ";", k⟩ := by
  induction hl with
  | nil =>
    intro bef last
    refine ⟨bef, last, ?_⟩
    rw [List.nil_append, skipFrom]
    cases k <;> simp [skipInst]
  | @tok t c h1 h2 h3 _ ih =>
    intro bef last
    rw [List.cons_append, skip_step 0 bef last t _ (by simp) (by simp [h1]), if_neg h3, if_neg h2]
    exact ih last t
  | @nest a c ha _ ih =>
    intro bef last
    rw [List.cons_append, List.append_assoc, skip_step 0 bef last _ _ (by simp) (by decide), if_neg (by decide), if_pos rfl]
    obtain ⟨x, y, e⟩ := skip_bal ha (0 + 1) last (b "{") (b "}" :: c ++ b ";" :: k) (by decide) (by simp)
    rw [e, List.cons_append, skip_step (0 + 1) x y _ _ (by simp) (by decide), if_pos rfl, if_neg (by decide)]
    exact ih y (b "}")

private theorem item_run (i : Item) (h : i.Ok) : ∀ (n : Nat) (out : Out) (bef last : Str) (k : List Str), last ≠ b "friend" →
    (i.toks ++ k).length < n → ∃ m bef' last', last' ≠ b "friend" ∧ k.length < m ∧
      enter n 0 out bef last (i.toks ++ k) = enter m 0 (out ++ ev k.length i.needs) bef' last' k := by
  intro n out bef last k hl hn
  obtain ⟨n, rfl⟩ : ∃ m, n = m + 1 := ⟨n - 1, by omega⟩
  cases i with
  | word t =>
    obtain ⟨h1, h2, h3, h4⟩ := plain_facts h
    exact ⟨n, last, t, h4, by simp [Item.toks] at hn; omega, by simpa [Item.toks, Item.needs, ev] using word_run h1 (.inl ⟨h2, h3⟩)⟩
  | friend t =>
    simp only [Item.toks, List.cons_append, List.nil_append, List.length_cons] at hn
    obtain ⟨n, rfl⟩ : ∃ m, n = m + 1 := ⟨n - 1, by omega⟩
    refine ⟨n, b "friend", t, h.2, by omega, ?_⟩
    simp only [Item.toks, List.cons_append, List.nil_append, Item.needs, ev, List.append_nil]
    rw [word_run (by decide) (.inl ⟨by decide, by decide⟩), word_run h.1 (.inr rfl)]
  | decl key name t =>
    obtain ⟨h1, h2, h3, h4, h5⟩ := h
    simp only [Item.toks, List.cons_append, List.nil_append, List.length_cons] at hn
    refine ⟨n, name, t, (plain_facts h3).2.2.2, by omega, ?_⟩
    simp only [Item.toks, List.cons_append, List.nil_append, Item.needs, ev, List.append_nil]
    refine class_run h1 hl ((alpha_iff _).2 h2.1) (bef' := key) ?_
    simp only [insertFriend, Rd.next, h5, if_false, h4, Bool.false_eq_true]
  | unnamed key t =>
    obtain ⟨h1, h2⟩ := h
    simp only [Item.toks, List.cons_append, List.nil_append, List.length_cons] at hn
    have h2' : alphaStart t = false := by
      cases e : alphaStart t with
      | false => rfl
      | true =>
        obtain ⟨c, hc, hl⟩ := (alpha_iff t).1 e
        exact absurd hl (h2 c hc).1
    refine ⟨n, key, t, by rintro rfl; exact absurd h2' (by decide), by omega, ?_⟩
    simp only [Item.toks, List.cons_append, List.nil_append, Item.needs, ev, List.append_nil]
    refine loop_done (bef' := last) (show key ≠ _ by rcases h1 with rfl | rfl <;> decide) ?_
    rw [onClass, if_pos ⟨h1, hl⟩]
    simp only [Rd.next, h2', Bool.false_eq_true, if_false]
  | tmpl ps t =>
    obtain ⟨h1, h2⟩ := h
    obtain ⟨p1, p2, p3, p4⟩ := plain_facts h2
    simp only [Item.toks, List.cons_append, List.nil_append, List.length_cons, List.append_assoc, List.length_append] at hn
    obtain ⟨n, rfl⟩ : ∃ m, n = m + 1 := ⟨n - 1, by omega⟩
    refine ⟨n, b ">", t, p4, by omega, ?_⟩
    simp only [Item.toks, List.cons_append, List.nil_append, Item.needs, ev, List.append_nil, List.append_assoc]
    have e : Scan.getTemplateArgs ⟨b "template", b "<", Scan.commas Scan.TParam.text ps ++ b ">" :: t :: k⟩ =
      .done (Scan.joinDot ([60] :: (Scan.commas Scan.TParam.toks ps ++ [[62]]))) ⟨[62], t, k⟩ :=
      Scan.C45_defaults_partial (b "template") t ps h1 k
    have e' : ∃ l1, templateArgs ⟨last, b "template", b "<", Scan.commas Scan.TParam.text ps ++ b ">" :: t :: k⟩ =
        some (Scan.joinDot ([60] :: (Scan.commas Scan.TParam.toks ps ++ [[62]])), ⟨l1, b ">", t, k⟩) := by
      rw [templateArgs, e]
      exact ⟨_, rfl⟩
    obtain ⟨l1, e'⟩ := e'
    rw [enter, loop]
    simp only [if_true, Rd.next, ne_eq, not_true_eq_false, if_false, e', p2, p3, not_false_eq_true, and_self]
    exact word_run (bef := l1) p1 (.inl ⟨p2, p3⟩)
  | inst l =>
    obtain ⟨h0, h1, h2⟩ := h
    simp only [Item.toks, List.cons_append, List.nil_append, List.length_cons, List.append_assoc, List.length_append] at hn
    obtain ⟨n, rfl⟩ : ∃ m, n = m + 1 := ⟨n - 1, by omega⟩
    cases l with
    | nil => exact absurd rfl h0
    | cons x l =>
      obtain ⟨u, v, e⟩ := skip_inst k h2 last (b "template")
      rw [List.cons_append, skipFrom] at e
      refine ⟨n, v, b ";", by decide, by simp at hn; omega, ?_⟩
      simp only [Item.toks, List.cons_append, List.nil_append, Item.needs, ev, List.append_nil, List.append_assoc]
      have hx : x ≠ b "<" := by simpa using h1
      rw [enter, loop]
      simp only [if_true, Rd.next, ne_eq, hx, not_false_eq_true, e]
      exact word_run (bef := u) (t := b ";") (by decide) (.inl ⟨by decide, by decide⟩)
  | cls name bases =>
    obtain ⟨h1, h2⟩ := h
    simp only [Item.toks, List.cons_append, List.nil_append, List.length_cons, List.append_assoc, List.length_append] at hn
    obtain ⟨x, y, e⟩ := head_run (isStruct := false) (out := out) (bef := last) (last := b "class") (name := name) (k := k) h2
    refine ⟨n, y, b "{", by decide, by omega, ?_⟩
    simp only [Item.toks, List.cons_append, List.nil_append, Item.needs, ev, List.append_assoc]
    refine class_run (bef' := x) (.inl rfl) hl ((alpha_iff _).2 h1.1) ?_
    rw [show (b "class" == b "struct") = false by decide, e]
    simp only [Bool.false_eq_true, if_false, line_eq h1, line]
    simp [show b "\nCLASSDESC_ACCESS(" = b "\n" ++ b "CLASSDESC_ACCESS(" by decide]
  | pub name bases body =>
    obtain ⟨h1, h2, h3, h4, h5⟩ := h
    simp only [Item.toks, List.cons_append, List.nil_append, List.length_cons, List.append_assoc, List.length_append] at hn
    obtain ⟨x, y, e⟩ := head_run (isStruct := true) (out := out) (bef := last) (last := b "struct") (name := name) (k := body ++ b "}" :: k) h2
    obtain ⟨u, v, es, _⟩ := scan_bal h3 0 y (b "{") (b "}" :: k) (by omega) (noLabel_cons h4 (by decide) (by decide))
    refine ⟨n, v, b "}", by decide, by omega, ?_⟩
    simp only [Item.toks, List.cons_append, List.nil_append, Item.needs, ev, List.append_nil, List.append_assoc]
    refine class_run (bef' := u) (.inr rfl) hl ((alpha_iff _).2 h1.1) ?_
    rw [show (b "struct" == b "struct") = true by decide, e]
    simp only [if_true, es]
    rw [scan, if_pos ⟨rfl, by omega⟩]
  | priv name bases pre label =>
    obtain ⟨h1, h2, h3, h4, h5, h6⟩ := h
    simp only [Item.toks, List.cons_append, List.nil_append, List.length_cons, List.append_assoc, List.length_append] at hn
    obtain ⟨x, y, e⟩ := head_run (isStruct := true) (out := out) (bef := last) (last := b "struct") (name := name)
      (k := pre ++ label :: b ":" :: k) h2
    obtain ⟨u, v, es, _⟩ := scan_bal h3 0 y (b "{") (label :: b ":" :: k) (by omega) (noLabel_cons h4 (by decide) (by decide))
    refine ⟨n, label, b ":", by decide, by omega, ?_⟩
    simp only [Item.toks, List.cons_append, List.nil_append, Item.needs, ev, List.append_assoc]
    refine class_run (bef' := v) (.inr rfl) hl ((alpha_iff _).2 h1.1) ?_
    rw [show (b "struct" == b "struct") = true by decide, e]
    simp only [if_true, es]
    rw [scan_step 0 0 u v label _ (by rintro ⟨rfl, _⟩; rcases h6 with h | h <;> exact absurd h (by decide))
      (by rintro ⟨rfl, _⟩; rcases h6 with h | h <;> exact absurd h (by decide))
      (by rcases h6 with rfl | rfl <;> decide)]
    rw [scan, if_neg (by rintro ⟨q, _⟩; exact absurd q (by decide))]
    have : b ":" = b ":" ∧ (label = b "protected" ∨ label = b "private") := ⟨rfl, h6.symm⟩
    simp only [this, if_true, line_eq h1, line]
    simp [show b "\nCLASSDESC_ACCESS(" = b "\n" ++ b "CLASSDESC_ACCESS(" by decide]

private def named (i : Item) : List (Str × Option Str) := i.toks.dropLast.map (·, none) ++ (i.toks.getLast?.map (·, i.needs)).toList

private theorem toks_last (i : Item) : ∃ u t, i.toks = u ++ [t] := by
  have : i.toks ≠ [] := by cases i <;> simp [Item.toks]
  exact ⟨_, _, (List.dropLast_concat_getLast this).symm⟩

private theorem evs_none (u : List Str) (xs : List (Str × Option Str)) : evs (u.map (·, none) ++ xs) = evs xs := by
  induction u with
  | nil => rfl
  | cons t u ih => rw [List.map_cons, List.cons_append, evs, ih]; rfl

private theorem toksOf_none (u : List Str) (xs : List (Str × Option Str)) : toksOf (u.map (·, none) ++ xs) = u ++ toksOf xs := by
  induction u with
  | nil => rfl
  | cons t u ih => rw [List.map_cons, List.cons_append, toksOf, ih]; rfl

private theorem named_facts (i : Item) (xs : List (Str × Option Str)) :
    evs (named i ++ xs) = ev xs.length i.needs ++ evs xs ∧ toksOf (named i ++ xs) = i.result ++ toksOf xs ∧
    (named i).map (·.1) = i.toks ∧ (named i).map (fun x => (x.1, x.2.isSome)) = i.marked ∧ (∀ x ∈ named i, ∀ n, x.2 = some n → i.needs = some n) := by
  obtain ⟨u, t, e⟩ := toks_last i
  simp only [named, Item.result, Item.marked, e, List.dropLast_concat, List.getLast?_concat, Option.map_some, Option.toList_some,
    List.append_assoc, List.singleton_append, evs_none, toksOf_none, evs, toksOf]
  refine ⟨?_, ?_, ?_, ?_, ?_⟩
  · cases i.needs <;> rfl
  · cases i.needs <;> rfl
  · simp [Function.comp_def]
  · simp [Function.comp_def]
  · intro x hx n hn
    simp only [List.mem_append, List.mem_map, List.mem_singleton] at hx
    rcases hx with ⟨_, _, rfl⟩ | rfl
    · cases hn
    · exact hn

private theorem items_run : ∀ (is : List Item), (∀ i ∈ is, i.Ok) → ∀ (n : Nat) (out : Out) (bef last : Str), last ≠ b "friend" →
    (is.flatMap Item.toks).length < n → enter n 0 out bef last (is.flatMap Item.toks) = some (out ++ evs (is.flatMap named)) := by
  intro is
  induction is with
  | nil => intro _ n out bef last _ _; simp [enter, evs]
  | cons i is ih =>
    intro hok n out bef last hl hn
    rw [List.flatMap_cons] at hn ⊢
    obtain ⟨m, x, y, hy, hm, e⟩ := item_run i (hok i (.head _)) n out bef last _ hl hn
    rw [e, ih (fun j hj => hok j (.tail _ hj)) m _ x y hy hm, List.flatMap_cons, (named_facts i _).1, List.append_assoc]
    have : (is.flatMap named).map (·.1) = is.flatMap Item.toks := by
      rw [List.map_flatMap]
      congr 1
      funext j
      exact (named_facts j []).2.2.1
    rw [← this, List.length_map]

private theorem items_go : ∀ (is : List Item), (∀ i ∈ is, i.Ok) → ∀ (k : List Str) (n : Nat) (out : Out) (bef last : Str), last ≠ b "friend" →
    (is.flatMap Item.toks ++ k).length < n → ∃ m out' bef' last', last' ≠ b "friend" ∧ k.length < m ∧
      enter n 0 out bef last (is.flatMap Item.toks ++ k) = enter m 0 out' bef' last' k := by
  intro is
  induction is with
  | nil => intro _ k n out bef last hl hn; exact ⟨n, out, bef, last, hl, hn, rfl⟩
  | cons i is ih =>
    intro hok k n out bef last hl hn
    rw [List.flatMap_cons, List.append_assoc] at hn ⊢
    obtain ⟨m, x, y, hy, hm, e⟩ := item_run i (hok i (.head _)) n out bef last _ hl hn
    rw [e]
    exact ih (fun j hj => hok j (.tail _ hj)) k m _ x y hy hm

private theorem lay_of {ms : List (Str × Bool)} {s : Str} (h : Layout ms s) : ∀ xs : List (Str × Option Str),
    xs.map (fun x => (x.1, x.2.isSome)) = ms → (∀ x ∈ xs, ∀ n, x.2 = some n → n ≠ [] ∧ ∀ c ∈ n, Word c) → Lay xs s := by
  induction h with
  | nil hs =>
    intro xs e _
    rw [List.map_eq_nil_iff] at e
    subst e
    exact .nil hs
  | @cons s l c r ts m h1 h2 h3 _ ih =>
    intro xs e hx
    cases xs with
    | nil => simp at e
    | cons x xs =>
      obtain ⟨t, o⟩ := x
      simp only [List.map_cons, List.cons.injEq, Prod.mk.injEq] at e
      obtain ⟨⟨rfl, rfl⟩, e⟩ := e
      refine .cons h1 h2 (fun n hn => ⟨h3 (by rw [hn]; rfl), hx (t, o) (.head _) n hn⟩) (ih xs e (fun y hy => hx y (.tail _ hy)))
  | @pragma s t r ts h1 h2 h3 h4 _ ih =>
    intro xs e hx
    cases xs with
    | nil => simp at e
    | cons x xs =>
      obtain ⟨u, o⟩ := x
      simp only [List.map_cons, List.cons.injEq, Prod.mk.injEq] at e
      obtain ⟨⟨rfl, ho⟩, e⟩ := e
      cases o with
      | some n => simp at ho
      | none => exact .pragma h1 h2 h3 h4 (ih xs e (fun y hy => hx y (.tail _ hy)))

private theorem needs_word {i : Item} (h : i.Ok) {n : Str} (hn : i.needs = some n) : n ≠ [] ∧ ∀ c ∈ n, Word c := by
  have key : ∀ m : Str, Ident m → m ≠ [] ∧ ∀ c ∈ m, Word c := by
    intro m hm
    refine ⟨?_, hm.2⟩
    rintro rfl
    obtain ⟨⟨c, hc, _⟩, _⟩ := hm
    cases hc
  cases i <;> simp only [Item.needs, Option.some.injEq, reduceCtorEq] at hn
  · subst hn; exact key _ h.1
  · subst hn; exact key _ h.1

/-- Partial (missing: class templates, for which the behaviour is undefined, see `C83_template_fails`; braces and labels that are not
followed by white space, `C83_late_fails`; the members of a `struct` without private parts are passed over, so that classes in there
are left out, `C83_nested_fails`): in a header made of the parts described by `Item`, every class and every `struct` with private parts
is given one access declaration, which stands inside its braces, before the members of a class, and behind the first `private :` or
`protected :` of a `struct`; nothing else is added, and all the tokens of the header stay as they are, in their order. -/
theorem C83_inserted_partial (is : List Item) (hok : ∀ i ∈ is, i.Ok) (s : Str) (hl : Layout (is.flatMap Item.marked) s)
    (hp : Tok.C63.Plain s) : ∃ out, run s = some out ∧ tokens out = (is.flatMap Item.result, true) := by
  have hn1 : (is.flatMap named).map (·.1) = is.flatMap Item.toks := by
    rw [List.map_flatMap]
    congr 1
    funext j
    exact (named_facts j []).2.2.1
  have hn2 : (is.flatMap named).map (fun x => (x.1, x.2.isSome)) = is.flatMap Item.marked := by
    rw [List.map_flatMap]
    congr 1
    funext j
    exact (named_facts j []).2.2.2.1
  have hlay : Lay (is.flatMap named) s := by
    refine lay_of hl _ hn2 ?_
    intro x hx n hn
    obtain ⟨i, hi, hm⟩ := List.mem_flatMap.1 hx
    exact needs_word (hok i hi) ((named_facts i []).2.2.2.2 x hm n hn)
  have ht : tokens s = (is.flatMap Item.toks, true) := by rw [← hn1]; exact C63_tokens_partial hlay.doc hp
  have hlines : lines (is.flatMap Item.toks) = some (evs (is.flatMap named)) := by
    have := items_run is hok ((is.flatMap Item.toks).length + 1) [] [] [] (by decide) (by omega)
    rw [lines]
    refine Eq.trans ?_ this
    exact word_run (bef := []) (last := []) (t := []) (by decide) (.inl ⟨by decide, by decide⟩)
  have hr : toksOf (is.flatMap named) = is.flatMap Item.result := by
    clear hlines ht hlay hn1 hn2 hl hok
    induction is with
    | nil => rfl
    | cons i is ih => rw [List.flatMap_cons, (named_facts i _).2.1, ih, List.flatMap_cons]
  obtain ⟨ks, h1, h2, h3, h4⟩ := lay_run hlay hp
  obtain ⟨out, h5, h6, h7, _⟩ := h4 0 s.length (by omega)
  refine ⟨out, ?_, by rw [← hr]; exact C63_tokens_partial h6 h7⟩
  have hc := chars_plain hp
  have hf := feed_plain _ s (Nat.le_refl _) hp
  simp only [run, ht, hc, hf, hlines, if_true, Option.map_some, List.map_map, Function.comp_def, List.length_map]
  rw [h2 (s.length + 1) (by omega)]
  have := place_eq s.length (is.flatMap named) ks [] h1
  simp only [List.nil_append] at this
  rw [this, h5]

private theorem wds {w : Str} (h : w.all isWord = true) : ∀ x ∈ w, Word x := by
  intro x hx
  have := List.all_eq_true.1 h x hx
  simpa [isWord, Word, or_assoc] using this

private def exText : Str := [] ++ (b "class" ++ ([32] ++ (b "A" ++ ([32] ++ (b "{" ++ ([32] ++ (b "int" ++ ([32] ++ (b "x" ++ ([] ++ (b ";" ++ ([32] ++ (b "}" ++ ([] ++ (b ";" ++ ([10] ++ (b "struct" ++ ([32] ++ (b "B" ++ ([32] ++ (b ":" ++ ([32] ++ (b "A" ++ ([32] ++ (b "{" ++ ([32] ++ (b "int" ++ ([32] ++ (b "y" ++ ([] ++ (b ";" ++ ([32] ++ (b "private" ++ ([] ++ (b ":" ++ ([32] ++ (b "int" ++ ([32] ++ (b "z" ++ ([] ++ (b ";" ++ ([32] ++ (b "}" ++ ([] ++ (b ";" ++ [10])))))))))))))))))))))))))))))))))))))))))))))

private theorem sp32 {x : UInt8} (h : x = 32 ∨ x = 10) : Sep [x] := by
  rcases h with rfl | rfl
  · exact .space (.inl rfl) .nil
  · exact .space (.inr (by decide)) .nil

/-- `template int f<decltype([]{ return 1; })>();` -/
example : (Item.inst [b "int", b "f", b "<", b "{", b "return", b "1", b ";", b "}", b ">"]).Ok := by
  refine ⟨by decide, by decide, .tok (by decide) (by decide) (by decide) (.tok (by decide) (by decide) (by decide)
    (.tok (by decide) (by decide) (by decide) (.nest (a := [b "return", b "1", b ";"]) ?_
      (.tok (by decide) (by decide) (by decide) .nil))))⟩
  exact .tok (by decide) (by decide) (by decide) (.tok (by decide) (by decide) (by decide) (.tok (by decide) (by decide) (by decide) .nil))

/-- A class and a `struct` with private members. -/
private def exItems : List Item := [.cls (b "A") [], .word (b "int"), .word (b "x"), .word (b ";"), .word (b "}"), .word (b ";"),
  .priv (b "B") [b ":", b "A"] [b "int", b "y", b ";"] (b "private"), .word (b "int"), .word (b "z"), .word (b ";"), .word (b "}"), .word (b ";")]

example : exText = b "class A { int x; };\nstruct B : A { int y; private: int z; };\n" := by decide +kernel

private theorem ex_layout : Layout (exItems.flatMap Item.marked) exText := by
  show Layout [(b "class", false), (b "A", false), (b "{", true), (b "int", false), (b "x", false), (b ";", false), (b "}", false), (b ";", false), (b "struct", false), (b "B", false), (b ":", false), (b "A", false), (b "{", false), (b "int", false), (b "y", false), (b ";", false), (b "private", false), (b ":", true), (b "int", false), (b "z", false), (b ";", false), (b "}", false), (b ";", false)] exText
  refine Layout.cons (s := []) .nil (.word (c := 32) (by decide) (wds (by decide +kernel)) (by unfold Word; decide)) (fun h => by cases h) ?_
  refine Layout.cons (s := [32]) (sp32 (by decide)) (.word (c := 32) (by decide) (wds (by decide +kernel)) (by unfold Word; decide)) (fun h => by cases h) ?_
  refine Layout.cons (s := [32]) (sp32 (by decide)) (.op (c := 32) (by decide +kernel) (by decide +kernel)) (fun _ => .inl rfl) ?_
  refine Layout.cons (s := [32]) (sp32 (by decide)) (.word (c := 32) (by decide) (wds (by decide +kernel)) (by unfold Word; decide)) (fun h => by cases h) ?_
  refine Layout.cons (s := [32]) (sp32 (by decide)) (.word (c := 59) (by decide) (wds (by decide +kernel)) (by unfold Word; decide)) (fun h => by cases h) ?_
  refine Layout.cons (s := []) .nil (.op (c := 32) (by decide +kernel) (by decide +kernel)) (fun h => by cases h) ?_
  refine Layout.cons (s := [32]) (sp32 (by decide)) (.op (c := 59) (by decide +kernel) (by decide +kernel)) (fun h => by cases h) ?_
  refine Layout.cons (s := []) .nil (.op (c := 10) (by decide +kernel) (by decide +kernel)) (fun h => by cases h) ?_
  refine Layout.cons (s := [10]) (sp32 (by decide)) (.word (c := 32) (by decide) (wds (by decide +kernel)) (by unfold Word; decide)) (fun h => by cases h) ?_
  refine Layout.cons (s := [32]) (sp32 (by decide)) (.word (c := 32) (by decide) (wds (by decide +kernel)) (by unfold Word; decide)) (fun h => by cases h) ?_
  refine Layout.cons (s := [32]) (sp32 (by decide)) (.op (c := 32) (by decide +kernel) (by decide +kernel)) (fun h => by cases h) ?_
  refine Layout.cons (s := [32]) (sp32 (by decide)) (.word (c := 32) (by decide) (wds (by decide +kernel)) (by unfold Word; decide)) (fun h => by cases h) ?_
  refine Layout.cons (s := [32]) (sp32 (by decide)) (.op (c := 32) (by decide +kernel) (by decide +kernel)) (fun h => by cases h) ?_
  refine Layout.cons (s := [32]) (sp32 (by decide)) (.word (c := 32) (by decide) (wds (by decide +kernel)) (by unfold Word; decide)) (fun h => by cases h) ?_
  refine Layout.cons (s := [32]) (sp32 (by decide)) (.word (c := 59) (by decide) (wds (by decide +kernel)) (by unfold Word; decide)) (fun h => by cases h) ?_
  refine Layout.cons (s := []) .nil (.op (c := 32) (by decide +kernel) (by decide +kernel)) (fun h => by cases h) ?_
  refine Layout.cons (s := [32]) (sp32 (by decide)) (.word (c := 58) (by decide) (wds (by decide +kernel)) (by unfold Word; decide)) (fun h => by cases h) ?_
  refine Layout.cons (s := []) .nil (.op (c := 32) (by decide +kernel) (by decide +kernel)) (fun _ => .inl rfl) ?_
  refine Layout.cons (s := [32]) (sp32 (by decide)) (.word (c := 32) (by decide) (wds (by decide +kernel)) (by unfold Word; decide)) (fun h => by cases h) ?_
  refine Layout.cons (s := [32]) (sp32 (by decide)) (.word (c := 59) (by decide) (wds (by decide +kernel)) (by unfold Word; decide)) (fun h => by cases h) ?_
  refine Layout.cons (s := []) .nil (.op (c := 32) (by decide +kernel) (by decide +kernel)) (fun h => by cases h) ?_
  refine Layout.cons (s := [32]) (sp32 (by decide)) (.op (c := 59) (by decide +kernel) (by decide +kernel)) (fun h => by cases h) ?_
  refine Layout.cons (s := []) .nil (.op (c := 10) (by decide +kernel) (by decide +kernel)) (fun h => by cases h) ?_
  exact .nil (sp32 (by decide))

private theorem ex_ok : ∀ i ∈ exItems, i.Ok := by
  have hi : ∀ n : Str, n = b "A" ∨ n = b "B" → Ident n := by
    rintro n (rfl | rfl)
    · exact ⟨⟨65, by decide, by unfold Letter; decide⟩, wds (by decide)⟩
    · exact ⟨⟨66, by decide, by unfold Letter; decide⟩, wds (by decide)⟩
  intro i h
  simp only [exItems, List.mem_cons, List.not_mem_nil, or_false] at h
  rcases h with rfl | rfl | rfl | rfl | rfl | rfl | rfl | rfl | rfl | rfl | rfl | rfl
  · exact ⟨hi _ (.inl rfl), .inl rfl⟩
  case inr.inr.inr.inr.inr.inr.inl =>
    refine ⟨hi _ (.inr rfl), .inr ⟨[b "A"], rfl, by decide⟩, ?_, ⟨by decide +kernel, by decide +kernel⟩, by decide, .inl rfl⟩
    exact .tok (by decide) (by decide) (by decide) (.tok (by decide) (by decide) (by decide) (.tok (by decide) (by decide) (by decide) .nil))
  all_goals (show C83.Plain _; unfold C83.Plain; decide)

example : ∃ out, run exText = some out ∧ tokens out = (exItems.flatMap Item.result, true) :=
  C83_inserted_partial exItems ex_ok exText ex_layout ⟨by decide +kernel, by decide +kernel, by decide +kernel⟩

example : run exText = some (b "class A { \nCLASSDESC_ACCESS(A);\nint x; };\nstruct B : A { int y; private: \nCLASSDESC_ACCESS(B);\nint z; };\n") := by
  decide +kernel

/-! ### Class templates -/

private def Sp (s : Str) : Prop := s.getLast? = some 32

private theorem sp_tail {c : UInt8} {s : Str} (h : Sp (c :: s)) (hc : c ≠ 32) : Sp s := by
  cases s with
  | nil => simp [Sp] at h; exact absurd h hc
  | cons d s => simpa [Sp] using h

private theorem sp_suffix {s t : Str} (h : Sp s) (ht : t <:+ s) (hn : t ≠ []) : Sp t := by
  obtain ⟨u, rfl⟩ := ht
  rw [Sp, List.getLast?_append] at h
  cases e : t.getLast? with
  | none => exact absurd (List.getLast?_eq_none_iff.1 e) hn
  | some x => rw [e] at h; rw [Sp, e]; exact h

private theorem skipAngle_suffix {n : Nat} {s r : Str} (h : skipAngle n s = some r) : ∃ u c, s = u ++ c :: r ∧ c ≠ 32 ∨ n = 0 := by
  induction s generalizing n with
  | nil => simp [skipAngle] at h
  | cons c s ih =>
    rw [skipAngle] at h
    by_cases h0 : n = 0
    · exact ⟨[], c, .inr h0⟩
    have h' : (if (if c = 60 then n + 1 else if c = 62 then n - 1 else n) = 0 then some s
        else skipAngle (if c = 60 then n + 1 else if c = 62 then n - 1 else n) s) = some r := h
    generalize hj : (if c = 60 then n + 1 else if c = 62 then n - 1 else n) = j at h'
    clear h
    split at h'
    · rename_i hz
      cases h'
      refine ⟨[], c, .inl ⟨rfl, ?_⟩⟩
      rintro rfl
      exact h0 (by simpa [hz] using hj)
    · rename_i hz
      obtain ⟨u, d, hd⟩ := ih h'
      rcases hd with ⟨rfl, hd⟩ | hd
      · exact ⟨c :: u, d, .inl ⟨rfl, hd⟩⟩
      · exact absurd hd hz

private theorem skipDef_suffix {n : Int} {s r : Str} {c : UInt8} (h : skipDef n s = some (c, r)) : ∃ u, s = u ++ c :: r ∧ c ≠ 32 := by
  induction s generalizing n with
  | nil => simp [skipDef] at h
  | cons d s ih =>
    rw [skipDef] at h
    split at h
    · rename_i hd
      cases h
      refine ⟨[], rfl, ?_⟩
      rintro rfl
      exact absurd hd.1 (by decide)
    · obtain ⟨u, rfl, hc⟩ := ih h
      exact ⟨d :: u, rfl, hc⟩

private theorem targs_none : ∀ (n : Nat) (s tok r : Str), Sp s → s.length ≤ n → targsLoop n s tok r = none := by
  intro n
  induction n with
  | zero => intro s tok r h hn; cases s <;> simp [Sp] at h hn
  | succ n ih =>
    intro s tok r h hn
    cases s with
    | nil => simp [Sp] at h
    | cons c s =>
      simp only [List.length_cons] at hn
      rw [targsLoop]
      split
      · rename_i hc
        exact ih s _ _ (sp_tail h (by rintro rfl; exact absurd hc (by decide))) (by omega)
      · rename_i hc
        split
        · rfl
        · rename_i d s' hd
          have hsf : d :: s' <:+ c :: s := by rw [← hd]; exact List.dropWhile_suffix _
          have hds : isSpace d = false := by
            have := List.head?_dropWhile_not isSpace (c :: s)
            rw [hd] at this
            simpa using this
          have hd32 : d ≠ 32 := by rintro rfl; exact absurd hds (by decide)
          have h1 := sp_suffix h hsf (by simp)
          have h2 := sp_tail h1 hd32
          have hlen := hsf.length_le
          simp only [List.length_cons] at hlen
          split
          · cases hq : skipAngle 1 s' with
            | none => rfl
            | some q =>
              obtain ⟨u, x, hx⟩ := skipAngle_suffix hq
              rcases hx with ⟨rfl, hx⟩ | hx
              · refine ih q _ _ (sp_tail (sp_suffix h2 ⟨u, rfl⟩ (by simp)) hx) ?_
                simp at hlen; omega
              · cases hx
          · split
            · cases hq : skipDef 0 (d :: s') with
              | none => rfl
              | some q =>
                obtain ⟨x, q⟩ := q
                obtain ⟨u, e, hx⟩ := skipDef_suffix hq
                rw [e] at h1
                refine ih q _ _ (sp_tail (sp_suffix h1 ⟨u, rfl⟩ (by simp)) hx) ?_
                have := congrArg List.length e
                simp at this; omega
            · split
              · exact ih s' _ _ h2 (by omega)
              · split
                · rename_i hw
                  -- a space was skipped, or `c` itself would have been taken
                  have : d :: s' ≠ c :: s := by
                    intro q
                    rw [List.cons.injEq] at q
                    rw [← q.1] at hc
                    exact hc hw
                  have hlt : (d :: s').length < (c :: s).length := by
                    rcases Nat.lt_or_ge (d :: s').length (c :: s).length with hl | hl
                    · exact hl
                    · exact absurd (hsf.eq_of_length_le hl) this
                  simp only [List.length_cons] at hlt
                  exact ih (d :: s') _ _ h1 (by simp; omega)
                · exact ih s' _ _ h2 (by omega)

/-- What is inserted into a header with a class template is not defined: `extract_targs` runs beyond the end of its string for the parameters
of every template, because the text made of them ends in a space. -/
theorem C83_template_fails (is : List Item) (hok : ∀ i ∈ is, i.Ok) (ps : List Scan.TParam) (hps : ∀ p ∈ ps, p.Ok) (name : Str)
    (hn : Ident name) (bases body k : List Str) (hb : Bases bases) (hbody : Bal (b "{") (b "}") body) (s : Str)
    (hs : tokens s = (is.flatMap Item.toks ++ b "template" :: b "<" :: (Scan.commas Scan.TParam.text ps ++ b ">" :: b "class" :: name ::
      (bases ++ b "{" :: (body ++ b "}" :: k))), true)) : run s = none := by
  have hl : lines (tokens s).1 = none := by
    rw [hs, lines]
    simp only
    generalize htl : b "template" :: b "<" :: (Scan.commas Scan.TParam.text ps ++ b ">" :: b "class" :: name ::
      (bases ++ b "{" :: (body ++ b "}" :: k))) = tl
    have h0 : loop ((is.flatMap Item.toks ++ tl).length + 2) 0 [] ⟨[], [], [], is.flatMap Item.toks ++ tl⟩ =
        enter ((is.flatMap Item.toks ++ tl).length + 1) 0 [] [] [] (is.flatMap Item.toks ++ tl) :=
      word_run (bef := []) (last := []) (t := []) (by decide) (.inl ⟨by decide, by decide⟩)
    rw [h0]
    obtain ⟨m, out, bef, last, hlast, hm, e⟩ := items_go is hok tl ((is.flatMap Item.toks ++ tl).length + 1) [] [] [] (by decide) (by omega)
    rw [e]
    obtain ⟨m, rfl⟩ : ∃ j, m = j + 1 := ⟨m - 1, by omega⟩
    subst htl
    have e1 : Scan.getTemplateArgs ⟨b "template", b "<", Scan.commas Scan.TParam.text ps ++ b ">" :: b "class" :: name ::
          (bases ++ b "{" :: (body ++ b "}" :: k))⟩ =
      .done (Scan.joinDot ([60] :: (Scan.commas Scan.TParam.toks ps ++ [[62]]))) ⟨[62], b "class", name ::
          (bases ++ b "{" :: (body ++ b "}" :: k))⟩ :=
      Scan.C45_defaults_partial (b "template") (b "class") ps hps _
    have e' : ∃ l1, templateArgs ⟨last, b "template", b "<", Scan.commas Scan.TParam.text ps ++ b ">" :: b "class" :: name ::
          (bases ++ b "{" :: (body ++ b "}" :: k))⟩ =
        some (Scan.joinDot ([60] :: (Scan.commas Scan.TParam.toks ps ++ [[62]])), ⟨l1, b ">", b "class", name ::
          (bases ++ b "{" :: (body ++ b "}" :: k))⟩) := by
      rw [templateArgs, e1]
      exact ⟨_, rfl⟩
    obtain ⟨l1, e'⟩ := e'
    have ht : ∃ u, Scan.joinDot ([60] :: (Scan.commas Scan.TParam.toks ps ++ [[62]])) = 60 :: u ∧ Sp u :=
      ⟨32 :: (Scan.joinDot (Scan.commas Scan.TParam.toks ps) ++ [62, 32]), by simp [Scan.joinDot], by
        simp [Sp, List.getLast?_cons, List.getLast?_append]⟩
    obtain ⟨u, hu, hsp⟩ := ht
    rw [hu] at e'
    have hx : extractTargs (60 :: u) = none := targs_none _ u _ _ hsp (Nat.le_refl _)
    have hi : insertFriend (60 :: u) false 0 out ⟨b ">", b "class", name, bases ++ b "{" :: (body ++ b "}" :: k)⟩ = .ub := by
      have hd := line_eq hn
      have hc : name.contains 60 = false := by
        cases hq : name.contains 60 with
        | false => rfl
        | true =>
          have := hn.2 60 (by simpa using hq)
          revert this; unfold Word; decide
      have key : ∀ x y, gobble ⟨x, y, b "{", body ++ b "}" :: k⟩ (b "{") (b "}") ≠ none := by
        intro x y
        obtain ⟨x', y', hg, _⟩ := gobble_bal (l := b "{") (r := b "}") (by decide) (by decide) hbody x y (b "{") k (by decide)
        rw [hg]; simp
      rcases hb with rfl | ⟨v, rfl, hv⟩
      · have h1 : b "{" ≠ b "<" := by decide
        have h2 : starts ":{" (b "{") = true := by decide
        have h3 : Rd.skipTo ⟨b "class", name, b "{", body ++ b "}" :: k⟩ (· == b "{") = some ⟨b "class", name, b "{", body ++ b "}" :: k⟩ := by
          rw [Rd.skipTo, Decl.skipTo.eq_def]; simp
        have h4 : b "{" ≠ b "}" := by decide
        simp only [insertFriend, List.nil_append, Rd.next, h1, if_false, h2, if_true, h3, Bool.false_eq_true, hd, hc, hx, h4]
        cases hg : gobble ⟨b "class", name, b "{", body ++ b "}" :: k⟩ (b "{") (b "}") with
        | none => exact absurd hg (key _ _)
        | some r => simp
      · obtain ⟨x, y, h3⟩ := skip_some (· == b "{") v (b "class") name (b ":") (b "{") (body ++ b "}" :: k) (by simp) (by decide) (by
          intro t ht
          simp only [beq_eq_false_iff_ne]
          rintro rfl
          exact hv ht)
        have h1 : b ":" ≠ b "<" := by decide
        have h2 : starts ":{" (b ":") = true := by decide
        have h4 : b "{" ≠ b "}" := by decide
        simp only [insertFriend, List.cons_append, Rd.next, h1, if_false, h2, if_true, h3, Bool.false_eq_true, hd, hc, hx, h4]
        cases hg : gobble ⟨x, y, b "{", body ++ b "}" :: k⟩ (b "{") (b "}") with
        | none => exact absurd hg (key _ _)
        | some r => simp
    rw [enter, loop]
    have hcs : ¬ (b "class" ≠ b "class" ∧ b "class" ≠ b "struct") := by decide
    have hgf : b ">" ≠ b "friend" := by decide
    have hst : (b "class" == b "struct") = false := by decide
    simp only [if_true, Rd.next, ne_eq, not_true_eq_false, if_false, e', false_and, onClass, hgf, not_false_eq_true, and_true, true_or, (alpha_iff _).2 hn.1, hst, hi]
  rw [run]
  simp only [hl, Option.map_none]
  split <;> rfl

/-- A class template. -/
example : run (b "template <class T> class A { T x; };\n") = none := by
  refine C83_template_fails [] (by simp) [⟨[b "class", b "T"], none⟩] ?_ (b "A") ⟨⟨65, by decide, by unfold Letter; decide⟩, ?_⟩ []
    [b "T", b "x", b ";"] [b ";"] (.inl rfl) ?_ _ (by decide +kernel)
  · intro p hp
    rw [List.mem_singleton] at hp
    subst hp
    exact ⟨by decide, fun d h => by cases h⟩
  · exact wds (by decide)
  · exact .tok (by decide) (by decide) (by decide) (.tok (by decide) (by decide) (by decide) (.tok (by decide) (by decide) (by decide) .nil))

/-! ### Where it goes wrong -/

/-- The line is printed when the character behind the brace has been copied: without white space there it cuts a word in two. -/
theorem C83_late_fails : run (b "class A {int x;};\n") = some (b "class A {i\nCLASSDESC_ACCESS(A);\nnt x;};\n") := by
  decide +kernel

/-- … or comes after the class is over. -/
theorem C83_empty_fails : run (b "class A {};\n") = some (b "class A {}\nCLASSDESC_ACCESS(A);\n;\n") := by
  decide +kernel

/-- A scoped enumeration is taken for a class. -/
theorem C83_enum_fails : run (b "enum class E { a, b };\n") = some (b "enum class E { \nCLASSDESC_ACCESS(E);\na, b };\n") := by
  decide +kernel

/-- A class within a `struct` is not given access to, or, with a label in it, the `struct` is. -/
theorem C83_nested_fails : run (b "struct A { class B { int x; }; };\n") = some (b "struct A { class B { int x; }; };\n") ∧
    run (b "struct A { class B { private: int x; }; };\n") =
      some (b "struct A { class B { private: \nCLASSDESC_ACCESS(A);\nint x; }; };\n") := by
  decide +kernel

/-- No access to a class declared `final`, nor to one whose name begins with an underscore. -/
theorem C83_missed_fails : run (b "class A final { int x; };\n") = some (b "class A final { int x; };\n") ∧
    run (b "class _A { int x; };\n") = some (b "class _A { int x; };\n") := by
  decide +kernel

/-- A function returning a class is taken for the class. -/
theorem C83_function_fails : run (b "class n::A f() { return 1; }\n") =
    some (b "class n::A f() { \nCLASSDESC_ACCESS(n);\nreturn 1; }\n") := by
  decide +kernel

/-- Behind a specialisation a macro is called that classdesc does not define. -/
theorem C83_special_fails : run (b "template <> class A<int> { int x; };\n") =
    some (b "template <> class A<int> { \nCLASSDESC_ACCESS_TEMPLATE(A< int > );\nint x; };\n#define CLASSDESC_TDEC template< > \nCLASSDESC_FDEF(A< int > );\n\n") := by
  decide +kernel

/-- A specialisation for several arguments makes the program run beyond the end of a string, as a class template does;
without `template <>` access is given, by means of a new name for the class that the class itself declares. -/
theorem C83_comma_fails : run (b "template <> class A<int,int> { int x; };\n") = none ∧
    run (b "class A<int,int> { int x; };\nclass A<int,char> { int y; };\n") =
      some (b "class A<int,int> { \ntypedef A< int , int >  ___ecotif0         ;\nCLASSDESC_ACCESS(___ecotif0         );\nint x; };\nclass A<int,char> { \ntypedef A< int , char >  ___ecotif1         ;\nCLASSDESC_ACCESS(___ecotif1         );\nint y; };\n") := by
  decide +kernel

end Verif.Friend
