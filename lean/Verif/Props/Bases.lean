import Verif.Bases
import Verif.Props.Scan
/-
C73 (base classes), C74 (template arguments of a class template) and C75 (which classes get a descriptor).
-/
namespace Verif.Bases
open Verif.Tok (Str b)
open Verif.Decl (Rd starts)

/-! ### C73: specification -/

/-- Spec: nesting of template brackets. -/
def adepth : List Str → Int
  | [] => 0
  | t :: r => (if t = b "<" then 1 else if t = b ">" then -1 else if t = b ">>" then -2 else 0) + adepth r

/-- Spec: template arguments with their brackets: the first token is `<`, and the last one is the first that closes it. -/
structure Group (g : List Str) : Prop where
  head : g.head? = some (b "<")
  inner : ∀ k, 0 < k → k < g.length → 0 < adepth (g.take k)
  close : adepth g = 0

/-- Spec: a word or `::` of the name of a base class. -/
def WordOk (w : Str) : Prop :=
  w ≠ b "virtual" ∧ w ≠ b "public" ∧ w ≠ b "protected" ∧ w ≠ b "private" ∧ w ≠ b ":" ∧ w ≠ b "<" ∧ w ≠ b ">" ∧ w ≠ b ">>" ∧
  starts ",{" w = false

/-- Spec: a base class as written: `virtual` and access specifiers in any order, and a name, which is a list of words each
with or without template arguments. -/
structure Base where
  pre : List Str
  name : List (Str × Option (List Str))

structure Base.Ok (x : Base) : Prop where
  pre : ∀ t ∈ x.pre, t = b "virtual" ∨ t = b "public" ∨ t = b "protected" ∨ t = b "private"
  ne : x.name ≠ []
  word : ∀ p ∈ x.name, WordOk p.1
  group : ∀ p ∈ x.name, ∀ g, p.2 = some g → Group g

def nameToks : List (Str × Option (List Str)) → List Str
  | [] => []
  | (w, none) :: n => w :: nameToks n
  | (w, some g) :: n => w :: (g ++ nameToks n)

def Base.toks (x : Base) : List Str := x.pre ++ nameToks x.name

/-- Spec: is the base private or protected?  The access specifier decides, or else `class` or `struct`. -/
def Base.hidden (isClass : Bool) (x : Base) : Bool :=
  match (x.pre.filter (· != b "virtual")).getLast? with
  | none => isClass
  | some a => a != b "public"

/-- Spec: the text is these tokens, each followed by one or more spaces. -/
inductive Spaced : List Str → Str → Prop
  | nil : Spaced [] []
  | cons {t : Str} {k : Nat} {r : List Str} {s : Str} : 0 < k → Spaced r s → Spaced (t :: r) (t ++ List.replicate k 32 ++ s)

/-- Spec: the text of a name: spaces only within template arguments. -/
inductive Reads : List (Str × Option (List Str)) → Str → Prop
  | nil : Reads [] []
  | word {w : Str} {n : List (Str × Option (List Str))} {s : Str} : Reads n s → Reads ((w, none) :: n) (w ++ s)
  | args {w : Str} {g : List Str} {n : List (Str × Option (List Str))} {s u : Str} :
      Spaced g u → Reads n s → Reads ((w, some g) :: n) (w ++ u ++ s)

/-- Spec: one action for each base class. -/
inductive Acts (targs : Str) : List Base → List Str → Prop
  | nil : Acts targs [] []
  | cons {x : Base} {t : Str} {xs : List Base} {as : List Str} : Reads x.name t → Acts targs xs as →
      Acts targs (x :: xs) ((b "classdesc::base_cast<" ++ (if typenameNeeded targs t = true then b "typename " else []) ++ t ++
        b " >::cast(arg)") :: as)

def commas : List Base → List Str
  | [] => []
  | [x] => x.toks
  | x :: y :: r => x.toks ++ b "," :: commas (y :: r)

/-- Spec: what stands between the name of a class and its members. -/
def heads : List Base → List Str
  | [] => []
  | x :: r => b ":" :: commas (x :: r)

/-! ### C73: proofs -/

private theorem adepth_append (a c : List Str) : adepth (a ++ c) = adepth a + adepth c := by
  induction a with
  | nil => simp [adepth]
  | cons t a ih => simp [adepth, ih]; omega

private theorem lt_ne : b "<" ≠ b ">" ∧ b "<" ≠ b ">>" ∧ b ">" ≠ b ">>" ∧ b ">" ≠ b "<" ∧ b ">>" ≠ b "<" ∧ b ">>" ≠ b ">" := by
  decide +kernel

private theorem angle_run : ∀ (g : List Str) (x : Str) (c : Int) (acc bef last t : Str) (rest : List Str),
    0 ≤ c → (c = 0 → x = b "<" ∧ last ≠ b ">" ∧ last ≠ b ">>") →
    (∀ k, 0 < k → k < (x :: g).length → 0 < c + adepth ((x :: g).take k)) → c + adepth (x :: g) = 0 →
    ∃ u bef' last', Spaced (x :: g) u ∧ (last' = b ">" ∨ last' = b ">>") ∧
      angleLoop c acc bef last x (g ++ t :: rest) = some (acc ++ u, ⟨bef', last', t, rest⟩) := by
  obtain ⟨n1, n2, n3, n4, n5, n6⟩ := lt_ne
  intro g
  induction g with
  | nil =>
    intro x c acc bef last t rest h0 hc hi he
    have hcond : ¬ (c = 0 ∧ (last = b ">" ∨ last = b ">>")) := by
      rintro ⟨a, e | e⟩
      · exact (hc a).2.1 e
      · exact (hc a).2.2 e
    have hx : (x = b ">" ∧ c = 1) ∨ (x = b ">>" ∧ c = 2) := by
      simp only [adepth] at he
      by_cases a1 : x = b "<"
      · rw [if_pos a1] at he; omega
      · rw [if_neg a1] at he
        by_cases a2 : x = b ">"
        · rw [if_pos a2] at he; exact .inl ⟨a2, by omega⟩
        · rw [if_neg a2] at he
          by_cases a3 : x = b ">>"
          · rw [if_pos a3] at he; exact .inr ⟨a3, by omega⟩
          · rw [if_neg a3] at he
            exact absurd (hc (by omega)).1 a1
    have end0 : ∀ (acc bef last : Str), (last = b ">" ∨ last = b ">>") →
        angleLoop 0 acc bef last t rest = some (acc, ⟨bef, last, t, rest⟩) := by
      intro acc bef last hl
      cases rest <;> simp [angleLoop, hl]
    refine ⟨x ++ [32], last, x, by simpa using Spaced.cons (t := x) (k := 1) (by omega) Spaced.nil, ?_, ?_⟩
    · rcases hx with h | h
      · exact .inl h.1
      · exact .inr h.1
    · simp only [List.nil_append, angleLoop, if_neg hcond]
      rcases hx with ⟨rfl, rfl⟩ | ⟨rfl, rfl⟩
      · simp only [if_neg n4, if_true]
        rw [if_neg (by simp), show (1 : Int) - 1 = 0 from rfl, end0 _ _ _ (.inl rfl)]
        simp [b]
      · simp only [if_neg n5, if_neg n6, if_true]
        rw [if_pos (by decide), if_neg (by simp), show (2 : Int) - 2 = 0 from rfl, end0 _ _ _ (.inr rfl)]
        simp [b]
  | cons y g ih =>
    intro x c acc bef last t rest h0 hc hi he
    have hcond : ¬ (c = 0 ∧ (last = b ">" ∨ last = b ">>")) := by
      rintro ⟨a, e | e⟩
      · exact (hc a).2.1 e
      · exact (hc a).2.2 e
    have h1 := hi 1 (by omega) (by simp)
    simp only [List.take_succ_cons, List.take_zero, adepth] at h1
    have hc1 : (if x = b "<" then c + 1 else if x = b ">" then c - 1
        else if x = b ">>" then (if c > 1 then c - 2 else c - 1) else c) = c + adepth [x] := by
      simp only [adepth]
      by_cases a1 : x = b "<"
      · simp only [if_pos a1]; omega
      · by_cases a2 : x = b ">"
        · simp only [if_neg a1, if_pos a2]; omega
        · by_cases a3 : x = b ">>"
          · rw [if_neg a1, if_neg a2, if_pos a3] at h1
            simp only [if_neg a1, if_neg a2, if_pos a3]
            rw [if_pos (by omega)]; omega
          · simp only [if_neg a1, if_neg a2, if_neg a3]; omega
    have hx1 : adepth [x] = (if x = b "<" then 1 else if x = b ">" then -1 else if x = b ">>" then -2 else 0) + 0 := rfl
    have hpos : 0 < c + adepth [x] := by rw [hx1]; omega
    have hi' : ∀ k, 0 < k → k < (y :: g).length → 0 < (c + adepth [x]) + adepth ((y :: g).take k) := by
      intro k hk hk'
      have := hi (k + 1) (by omega) (by simp at hk' ⊢; omega)
      rw [List.take_succ_cons, show x :: (y :: g).take k = [x] ++ (y :: g).take k from rfl, adepth_append] at this
      omega
    have he' : (c + adepth [x]) + adepth (y :: g) = 0 := by
      rw [show x :: y :: g = [x] ++ (y :: g) from rfl, adepth_append] at he
      omega
    obtain ⟨u, bef', last', hu, hl, e⟩ := ih y (c + adepth [x])
      (if (x = b ">" ∨ x = b ">>") ∧ c + adepth [x] ≠ 0 then acc ++ x ++ b " " ++ b " " else acc ++ x ++ b " ")
      last x t rest (by omega) (by omega) hi' he'
    by_cases hcl : x = b ">" ∨ x = b ">>"
    · refine ⟨x ++ [32, 32] ++ u, bef', last', ?_, hl, ?_⟩
      · exact Spaced.cons (t := x) (k := 2) (by omega) hu
      · simp only [List.cons_append, angleLoop, if_neg hcond, hc1]
        rw [e, if_pos ⟨hcl, by omega⟩]
        simp [b]
    · refine ⟨x ++ [32] ++ u, bef', last', ?_, hl, ?_⟩
      · exact Spaced.cons (t := x) (k := 1) (by omega) hu
      · simp only [List.cons_append, angleLoop, if_neg hcond, hc1]
        rw [e, if_neg (by rintro ⟨a, _⟩; exact hcl a)]
        simp [b]

private def runAt (respect isClass : Bool) (targs : Str) (n : Nat) (priv : Bool) (base : Str) (acts : List Str) (bef last : Str) :
    List Str → Option (List Str × Rd)
  | [] => none
  | t :: r => baseLoop respect isClass targs n priv base acts ⟨bef, last, t, r⟩

variable {respect isClass : Bool} {targs : Str}

private theorem next_run (n : Nat) (priv : Bool) (base : Str) (acts : List Str) (bef last t : Str) (r : List Str) :
    (Rd.next ⟨bef, last, t, r⟩).bind (baseLoop respect isClass targs n priv base acts) =
      runAt respect isClass targs n priv base acts last t r := by
  cases r <;> rfl

private theorem word_plain {w : Str} (h : WordOk w) : w ≠ b "virtual" ∧ isAccess w = false ∧ w ≠ b "<" ∧ w ≠ b "{" := by
  obtain ⟨h1, h2, h3, h4, h5, h6, _, _, h9⟩ := h
  refine ⟨h1, ?_, h6, ?_⟩
  · simp [isAccess, h2, h3, h4, h5]
  · rintro rfl
    exact absurd h9 (by decide)

private theorem word_step {w : Str} (h : WordOk w) (n : Nat) (priv : Bool) (base : Str) (acts : List Str) (bef last : Str)
    (r : List Str) :
    runAt respect isClass targs (n + 1) priv base acts bef last (w :: r) =
      runAt respect isClass targs n priv (base ++ w) acts last w r := by
  obtain ⟨h1, h2, h3, h4⟩ := word_plain h
  have h9 := h.2.2.2.2.2.2.2.2
  simp only [runAt, baseLoop, if_neg h1, h2, if_neg h3, h9, Bool.false_and, if_neg h4]
  simp only [Bool.false_eq_true, if_false]
  exact next_run ..

/-- Tokens at which a name ends, or that can follow template arguments. -/
private def Plain (t : Str) : Prop := t ≠ b "virtual" ∧ isAccess t = false ∧ t ≠ b "<"

private theorem group_step {g : List Str} (hg : Group g) {t : Str} (ht : Plain t) (n : Nat) (priv : Bool) (base : Str)
    (acts : List Str) (bef last : Str) (hl : last ≠ b ">" ∧ last ≠ b ">>") (r : List Str) :
    ∃ u bef' last', Spaced g u ∧
    runAt respect isClass targs (n + 1) priv base acts bef last (g ++ t :: r) =
      runAt respect isClass targs (n + 1) priv (base ++ u) acts bef' last' (t :: r) := by
  cases g with
  | nil => exact absurd hg.head (by simp)
  | cons x g =>
    have hx : x = b "<" := by have := hg.head; simpa using this
    obtain ⟨u, bef', last', hu, _, e⟩ := angle_run g x 0 base bef last t r (by omega) (fun _ => ⟨hx, hl⟩)
      (by intro k a c; have := hg.inner k a c; omega) (by have := hg.close; omega)
    refine ⟨u, bef', last', hu, ?_⟩
    subst hx
    have v : b "<" ≠ b "virtual" := by decide +kernel
    have a : isAccess (b "<") = false := by decide +kernel
    obtain ⟨t1, t2, t3⟩ := ht
    simp only [runAt, List.cons_append, baseLoop, if_neg v, a, e, if_neg t1, t2, if_neg t3]
    simp

private theorem plain_of_word {w : Str} (h : WordOk w) : Plain w :=
  ⟨(word_plain h).1, (word_plain h).2.1, (word_plain h).2.2.1⟩

private theorem name_run (sep : Str) (hsep : Plain sep) (rest : List Str) :
    ∀ (name : List (Str × Option (List Str))), (∀ p ∈ name, WordOk p.1) → (∀ p ∈ name, ∀ g, p.2 = some g → Group g) →
    ∀ (n : Nat) (priv : Bool) (base : Str) (acts : List Str) (bef last : Str),
      (nameToks name ++ sep :: rest).length ≤ n →
    ∃ u n' bef' last', Reads name u ∧ (sep :: rest).length ≤ n' ∧
    runAt respect isClass targs n priv base acts bef last (nameToks name ++ sep :: rest) =
      runAt respect isClass targs n' priv (base ++ u) acts bef' last' (sep :: rest) := by
  intro name
  induction name with
  | nil =>
    intro _ _ n priv base acts bef last hn
    exact ⟨[], n, bef, last, .nil, by simpa [nameToks] using hn, by simp [nameToks]⟩
  | cons p name ih =>
    intro hw hg n priv base acts bef last hn
    have ih := ih (fun q hq => hw q (.tail _ hq)) (fun q hq => hg q (.tail _ hq))
    have hw0 := hw p (.head _)
    have hg0 := hg p (.head _)
    have hplain : ∃ t r, nameToks name ++ sep :: rest = t :: r ∧ Plain t := by
      cases name with
      | nil => exact ⟨sep, rest, rfl, hsep⟩
      | cons q name =>
        have := plain_of_word (hw q (.tail _ (.head _)))
        obtain ⟨w, o⟩ := q
        cases o with
        | none => exact ⟨w, _, rfl, this⟩
        | some g => exact ⟨w, _, rfl, this⟩
    obtain ⟨w, o⟩ := p
    cases n with
    | zero => cases o <;> simp [nameToks] at hn
    | succ n =>
      cases o with
      | none =>
        simp only [nameToks, List.cons_append, List.length_cons] at hn
        rw [nameToks, List.cons_append, word_step hw0]
        obtain ⟨u, n', bef', last', hu, hn', e⟩ := ih n priv (base ++ w) acts last w (by omega)
        exact ⟨w ++ u, n', bef', last', .word hu, hn', by rw [e, List.append_assoc]⟩
      | some g =>
        simp only [nameToks, List.cons_append, List.append_assoc, List.length_cons, List.length_append] at hn
        rw [nameToks, List.cons_append, word_step hw0]
        obtain ⟨t, r, htr, ht⟩ := hplain
        have hn1 : ∃ m, n = m + 1 := by
          cases n with
          | zero => omega
          | succ m => exact ⟨m, rfl⟩
        obtain ⟨m, rfl⟩ := hn1
        rw [List.append_assoc, htr]
        obtain ⟨v, bef1, last1, hv, e1⟩ := group_step (hg0 g rfl) ht m priv (base ++ w) acts last w
          ⟨hw0.2.2.2.2.2.2.1, hw0.2.2.2.2.2.2.2.1⟩ r (respect := respect) (isClass := isClass) (targs := targs)
        rw [e1, ← htr]
        obtain ⟨u, n', bef', last', hu, hn', e⟩ := ih (m + 1) priv (base ++ w ++ v) acts bef1 last1
          (by simp only [List.length_append, List.length_cons]; omega)
        exact ⟨w ++ v ++ u, n', bef', last', .args hv hu, hn', by rw [e]; simp [List.append_assoc]⟩

private theorem pre_run (ts : List Str) :
    ∀ (pre : List Str), (∀ t ∈ pre, t = b "virtual" ∨ t = b "public" ∨ t = b "protected" ∨ t = b "private") →
    ∀ (n : Nat) (priv : Bool) (base : Str) (acts : List Str) (bef last : Str), (pre ++ ts).length ≤ n →
    ∃ n' bef' last', ts.length ≤ n' ∧
    runAt respect isClass targs n priv base acts bef last (pre ++ ts) =
      runAt respect isClass targs n'
        (match (pre.filter (· != b "virtual")).getLast? with | none => priv | some a => a != b "public")
        base acts bef' last' ts := by
  intro pre
  induction pre with
  | nil => intro _ n priv base acts bef last hn; exact ⟨n, bef, last, hn, rfl⟩
  | cons t pre ih =>
    intro h n priv base acts bef last hn
    have ih := ih (fun q hq => h q (.tail _ hq))
    cases n with
    | zero => simp at hn
    | succ n =>
      simp only [List.cons_append, List.length_cons] at hn
      by_cases hv : t = b "virtual"
      · obtain ⟨n', bef', last', hn', e⟩ := ih n priv base acts last t (by omega)
        refine ⟨n', bef', last', hn', ?_⟩
        have step : runAt respect isClass targs (n + 1) priv base acts bef last (t :: pre ++ ts) =
            runAt respect isClass targs n priv base acts last t (pre ++ ts) := by
          simp only [runAt, List.cons_append, baseLoop, if_pos hv]
          exact next_run ..
        rw [step, e]
        have : (t :: pre).filter (· != b "virtual") = pre.filter (· != b "virtual") := by
          simp [hv]
        rw [this]
      · have hacc : isAccess t = true := by
          rcases h t (.head _) with e | e | e | e
          · exact absurd e hv
          all_goals subst e; decide +kernel
        have hp : ((isClass && t != b "public") || (!isClass && (t == b "private" || t == b "protected"))) = (t != b "public") := by
          have n1 : b "protected" ≠ b "public" := by decide +kernel
          have n2 : b "private" ≠ b "public" := by decide +kernel
          have n3 : b "public" ≠ b "private" := by decide +kernel
          have n4 : b "public" ≠ b "protected" := by decide +kernel
          rcases h t (.head _) with e | e | e | e
          · exact absurd e hv
          · subst e; cases isClass <;> simp [n3, n4]
          · subst e; cases isClass <;> simp [n1]
          · subst e; cases isClass <;> simp [n2]
        obtain ⟨n', bef', last', hn', e⟩ := ih n (t != b "public") base acts last t (by omega)
        refine ⟨n', bef', last', hn', ?_⟩
        have step : runAt respect isClass targs (n + 1) priv base acts bef last (t :: pre ++ ts) =
            runAt respect isClass targs n (t != b "public") base acts last t (pre ++ ts) := by
          simp only [runAt, List.cons_append, baseLoop, if_neg hv, hacc, if_true, hp]
          exact next_run ..
        rw [step, e]
        have : (t :: pre).filter (· != b "virtual") = t :: pre.filter (· != b "virtual") := by
          simp [hv]
        rw [this]
        cases hl : (pre.filter (· != b "virtual")).getLast? with
        | none =>
          rw [List.getLast?_eq_none_iff] at hl
          simp [hl]
        | some a => simp [List.getLast?_cons, hl]

private theorem plain_comma : Plain (b ",") := by
  refine ⟨by decide +kernel, by decide +kernel, by decide +kernel⟩

private theorem plain_brace : Plain (b "{") := by
  refine ⟨by decide +kernel, by decide +kernel, by decide +kernel⟩

private theorem sep_comma (n : Nat) (priv : Bool) (base : Str) (hb : base ≠ []) (acts : List Str) (bef last : Str) (r : List Str) :
    runAt respect isClass targs (n + 1) priv base acts bef last (b "," :: r) =
      runAt respect isClass targs n isClass [] (if (!respect || !priv) = true then acts ++ [action targs base] else acts)
        last (b ",") r := by
  obtain ⟨h1, h2, h3⟩ := plain_comma
  have h4 : b "," ≠ b "{" := by decide +kernel
  have h5 : starts ",{" (b ",") = true := by decide +kernel
  simp only [runAt, baseLoop, if_neg h1, h2, if_neg h3, if_neg h4, h5, Bool.false_eq_true, if_false, Bool.true_and]
  rw [next_run]
  simp [hb]
  cases r <;> rfl

private theorem sep_brace (n : Nat) (priv : Bool) (base : Str) (hb : base ≠ []) (acts : List Str) (bef last : Str) (r : List Str) :
    runAt respect isClass targs (n + 1) priv base acts bef last (b "{" :: r) =
      some (if (!respect || !priv) = true then acts ++ [action targs base] else acts, ⟨bef, last, b "{", r⟩) := by
  obtain ⟨h1, h2, h3⟩ := plain_brace
  have h5 : starts ",{" (b "{") = true := by decide +kernel
  simp only [runAt, baseLoop, if_neg h1, h2, if_neg h3, h5, Bool.false_eq_true, if_false, Bool.true_and, if_true]
  simp [hb]

private theorem reads_ne {x : Base} (hx : x.Ok) {u : Str} (h : Reads x.name u) : u ≠ [] := by
  have hne : ∀ w, WordOk w → w ≠ [] := by
    rintro w hw rfl
    exact absurd hw.2.2.2.2.2.2.2.2 (by decide)
  have hw := hx.word
  have hn := hx.ne
  cases hh : x.name with
  | nil => exact absurd hh hn
  | cons p n =>
    rw [hh] at h hw
    have := hne _ (hw p (.head _))
    cases h <;> simp_all

/-- Spec: the base classes for which actions are wanted. -/
def wanted (respect isClass : Bool) (xs : List Base) : List Base := xs.filter fun x => !respect || !x.hidden isClass

private theorem list_run (rest : List Str) : ∀ (xs : List Base) (x : Base), (∀ y ∈ x :: xs, y.Ok) →
    ∀ (n : Nat) (acts : List Str) (bef last : Str), (commas (x :: xs) ++ b "{" :: rest).length ≤ n →
    ∃ as bef' last', Acts targs (wanted respect isClass (x :: xs)) as ∧
    runAt respect isClass targs n isClass [] acts bef last (commas (x :: xs) ++ b "{" :: rest) =
      some (acts ++ as, ⟨bef', last', b "{", rest⟩) := by
  intro xs
  induction xs with
  | nil =>
    intro x hx n acts bef last hn
    have hx := hx x (.head _)
    simp only [commas, Base.toks, List.append_assoc] at hn ⊢
    obtain ⟨n1, bef1, last1, hn1, e1⟩ := pre_run (nameToks x.name ++ b "{" :: rest) x.pre hx.pre n isClass [] acts bef last hn
      (respect := respect) (isClass := isClass) (targs := targs)
    obtain ⟨u, n2, bef2, last2, hu, hn2, e2⟩ := name_run (b "{") plain_brace rest x.name hx.word hx.group n1 _ [] acts bef1 last1 hn1
      (respect := respect) (isClass := isClass) (targs := targs)
    rw [e1, e2]
    cases n2 with
    | zero => simp at hn2
    | succ n2 =>
      rw [List.nil_append, sep_brace n2 _ u (reads_ne hx hu)]
      have hh : (match (x.pre.filter (· != b "virtual")).getLast? with | none => isClass | some a => a != b "public") = x.hidden isClass := rfl
      rw [hh]
      by_cases hw : (!respect || !x.hidden isClass) = true
      · rw [if_pos hw]
        refine ⟨[action targs u], bef2, last2, ?_, rfl⟩
        simp only [wanted, List.filter_cons, hw, if_true, List.filter_nil]
        exact .cons hu .nil
      · rw [if_neg hw]
        refine ⟨[], bef2, last2, ?_, by simp⟩
        simp only [wanted, List.filter_cons, hw, List.filter_nil]
        exact .nil
  | cons y xs ih =>
    intro x hx n acts bef last hn
    have ih := ih y (fun z hz => hx z (.tail _ hz))
    have hx := hx x (.head _)
    simp only [commas, Base.toks, List.append_assoc, List.cons_append] at hn ⊢
    obtain ⟨n1, bef1, last1, hn1, e1⟩ := pre_run _ x.pre hx.pre n isClass [] acts bef last hn
      (respect := respect) (isClass := isClass) (targs := targs)
    obtain ⟨u, n2, bef2, last2, hu, hn2, e2⟩ := name_run (b ",") plain_comma _ x.name hx.word hx.group n1 _ [] acts bef1 last1 hn1
      (respect := respect) (isClass := isClass) (targs := targs)
    rw [e1, e2]
    cases n2 with
    | zero => simp at hn2
    | succ n2 =>
      rw [List.nil_append, sep_comma n2 _ u (reads_ne hx hu)]
      have hh : (match (x.pre.filter (· != b "virtual")).getLast? with | none => isClass | some a => a != b "public") = x.hidden isClass := rfl
      rw [hh]
      simp only [List.length_cons] at hn2
      by_cases hw : (!respect || !x.hidden isClass) = true
      · rw [if_pos hw]
        obtain ⟨as, bef', last', ha, e⟩ := ih n2 (acts ++ [action targs u]) last2 (b ",") (by omega)
        refine ⟨action targs u :: as, bef', last', ?_, by rw [e]; simp⟩
        have : wanted respect isClass (x :: y :: xs) = x :: wanted respect isClass (y :: xs) := by
          simp only [wanted]; rw [List.filter_cons, if_pos hw]
        rw [this]
        exact .cons hu ha
      · rw [if_neg hw]
        obtain ⟨as, bef', last', ha, e⟩ := ih n2 acts last2 (b ",") (by omega)
        refine ⟨as, bef', last', ?_, e⟩
        have : wanted respect isClass (x :: y :: xs) = wanted respect isClass (y :: xs) := by
          simp only [wanted]; rw [List.filter_cons, if_neg hw]
        rw [this]
        exact ha

/-- C73: the list of base classes is read up to the brace, and there is one action for each base class whose members may be
used (all of them without the option -respect_private), in the order written, naming the class as written.  Missing from
the full statement: pack expansions, `decltype` and the keyword `template` in names (`C73_template_fails`). -/
theorem C73_bases_partial (respect isClass : Bool) (targs : Str) (xs : List Base) (hx : ∀ x ∈ xs, x.Ok) (bef last t : Str)
    (r rest : List Str) (ht : heads xs ++ b "{" :: rest = t :: r) :
    ∃ as bef' last', Acts targs (wanted respect isClass xs) as ∧
      bases respect isClass targs ⟨bef, last, t, r⟩ = some (as, ⟨bef', last', b "{", rest⟩) := by
  cases xs with
  | nil =>
    simp only [heads, List.nil_append, List.cons.injEq] at ht
    obtain ⟨rfl, rfl⟩ := ht
    refine ⟨[], bef, last, .nil, ?_⟩
    obtain ⟨h1, h2, h3⟩ := plain_brace
    have h5 : starts ",{" (b "{") = true := by decide +kernel
    simp only [bases, baseLoop, if_neg h1, h2, if_neg h3, h5]
    simp
  | cons x xs =>
    simp only [heads, List.cons_append, List.cons.injEq] at ht
    obtain ⟨rfl, rfl⟩ := ht
    obtain ⟨as, bef', last', ha, e⟩ := list_run rest xs x hx _ [] last (b ":") (Nat.le_refl _)
      (respect := respect) (isClass := isClass) (targs := targs)
    refine ⟨as, bef', last', ha, ?_⟩
    rw [List.nil_append] at e
    rw [← e]
    have h1 : b ":" ≠ b "virtual" := by decide +kernel
    have h2 : isAccess (b ":") = true := by decide +kernel
    have hp : ((isClass && b ":" != b "public") || (!isClass && (b ":" == b "private" || b ":" == b "protected"))) = isClass := by
      have n1 : b ":" ≠ b "public" := by decide +kernel
      have n2 : b ":" ≠ b "private" := by decide +kernel
      have n3 : b ":" ≠ b "protected" := by decide +kernel
      cases isClass <;> simp [n1, n2, n3]
    simp only [bases, baseLoop, if_neg h1, h2, if_true, hp]
    exact next_run ..

/-! ### C73: the keyword `typename` -/

/-- Spec: an identifier. -/
def Ident (p : Str) : Prop := ∃ c r, p = c :: r ∧ idStart c = true ∧ ∀ d ∈ r, idChar d = true

/-- Spec: `p` occurs in `s` as a whole word. -/
def Word (p s : Str) : Prop :=
  ∃ u v, s = u ++ p ++ v ∧ Ident p ∧ (∀ c, u.getLast? = some c → idChar c = false) ∧ (∀ c, v.head? = some c → idChar c = false)

/-- Spec: closing minus opening template brackets. -/
def net : Str → Int
  | [] => 0
  | c :: s => (if c = 62 then 1 else if c = 60 then -1 else 0) + net s

private theorem start_char {c : UInt8} (h : idStart c = true) : idChar c = true := by simp [idChar, h]

private theorem dropWhile_all {p : UInt8 → Bool} : ∀ (x y : Str), (∀ c ∈ x, p c = true) → (∀ c, y.head? = some c → p c = false) →
    (x ++ y).dropWhile p = y ∧ (x ++ y).takeWhile p = x := by
  intro x
  induction x with
  | nil =>
    intro y _ hy
    cases y with
    | nil => simp
    | cons c y => simp [List.dropWhile_cons, List.takeWhile_cons, hy c rfl]
  | cons a x ih =>
    intro y hx hy
    have := ih y (fun c hc => hx c (.tail _ hc)) hy
    simp [List.dropWhile_cons, List.takeWhile_cons, hx a (.head _), this]

private theorem split_first (p : UInt8 → Bool) : ∀ s : Str, ∃ x y, s = x ++ y ∧ (∀ c ∈ x, p c = true) ∧ (∀ c, y.head? = some c → p c = false) := by
  intro s
  induction s with
  | nil => exact ⟨[], [], rfl, by simp, by simp⟩
  | cons c s ih =>
    by_cases h : p c = true
    · obtain ⟨x, y, rfl, hx, hy⟩ := ih
      refine ⟨c :: x, y, rfl, ?_, hy⟩
      intro d hd
      rcases List.mem_cons.1 hd with rfl | hd
      · exact h
      · exact hx d hd
    · exact ⟨[], c :: s, rfl, by simp, by intro d hd; simp at hd; subst hd; simpa using h⟩

private theorem tokens_complete : ∀ (n : Nat) (s p : Str), s.length ≤ n → Word p s → p ∈ tokenSet n s := by
  intro n
  induction n with
  | zero =>
    rintro s p hn ⟨u, v, rfl, ⟨c, r, rfl, _⟩, _⟩
    simp at hn
  | succ n ih =>
    rintro s p hn ⟨u, v, hs, ⟨c, r, rfl, hc, hr⟩, hu, hv⟩
    obtain ⟨x, u', rfl, hx, hu'⟩ := split_first (fun c => !idStart c) u
    have hd : s.dropWhile (fun c => !idStart c) = u' ++ (c :: r) ++ v := by
      rw [hs, show x ++ u' ++ (c :: r) ++ v = x ++ (u' ++ (c :: r) ++ v) by simp]
      refine (dropWhile_all x _ hx ?_).1
      intro d hd
      cases u' with
      | nil => simp at hd; subst hd; simp [hc]
      | cons e u' => exact hu' d (by simpa using hd)
    cases u' with
    | nil =>
      rw [tokenSet, hd]
      have := (dropWhile_all r v hr hv).2
      simp [this]
    | cons e u' =>
      have he : idStart e = true := by simpa using hu' e rfl
      rw [tokenSet, hd]
      simp only [List.cons_append]
      apply List.mem_cons_of_mem
      obtain ⟨y, w, rfl, hy, hw⟩ := split_first idChar u'
      have hwne : w ≠ [] := by
        rintro rfl
        simp only [List.append_nil] at hu
        have : ∀ d, (x ++ e :: y).getLast? = some d → idChar d = true := by
          intro d hd
          rw [List.getLast?_append] at hd
          cases hz : (e :: y).getLast? with
          | none => simp at hz
          | some z =>
            rw [hz] at hd
            simp only [Option.some_or, Option.some.injEq] at hd
            subst hd
            have := List.mem_of_getLast? hz
            rcases List.mem_cons.1 this with rfl | h
            · exact start_char he
            · exact hy _ h
        cases hz : (x ++ e :: y).getLast? with
        | none => simp at hz
        | some z =>
          have h1 := this z hz
          have h2 := hu z hz
          simp_all
      have hd2 : (y ++ w ++ c :: r ++ v).dropWhile idChar = w ++ (c :: r) ++ v := by
        rw [show y ++ w ++ c :: r ++ v = y ++ (w ++ (c :: r) ++ v) by simp]
        refine (dropWhile_all y _ hy ?_).1
        intro d hd
        cases w with
        | nil => exact absurd rfl hwne
        | cons z w => exact hw d (by simpa using hd)
      rw [hd2]
      apply ih
      · rw [hs] at hn
        simp only [List.length_append, List.length_cons] at hn ⊢
        omega
      · refine ⟨w, v, rfl, ⟨c, r, rfl, hc, hr⟩, ?_, hv⟩
        intro d hd
        apply hu
        rw [List.getLast?_append, show e :: (y ++ w) = (e :: y) ++ w from rfl, List.getLast?_append, hd]
        rfl

private theorem tokens_sound : ∀ (n : Nat) (s p : Str), p ∈ tokenSet n s → Ident p ∧ ∃ u v, s = u ++ p ++ v := by
  intro n
  induction n with
  | zero => intro s p h; simp [tokenSet] at h
  | succ n ih =>
    intro s p h
    obtain ⟨x, y, rfl, hx, hy⟩ := split_first (fun c => !idStart c) s
    rw [tokenSet, (dropWhile_all x y hx hy).1] at h
    cases y with
    | nil => simp at h
    | cons c r =>
      have hc : idStart c = true := by simpa using hy c rfl
      obtain ⟨a, z, rfl, ha, hz⟩ := split_first idChar r
      have e := dropWhile_all a z ha hz
      simp only [e.1, e.2, List.mem_cons] at h
      rcases h with rfl | h
      · exact ⟨⟨c, a, rfl, hc, ha⟩, x, z, by simp⟩
      · obtain ⟨hp, u, v, rfl⟩ := ih z p h
        exact ⟨hp, x ++ c :: a ++ u, v, by simp⟩

private theorem find_le (p v : Str) : ∀ u : Str, ∃ i, i ≤ u.length ∧ find p (u ++ p ++ v) = some i := by
  intro u
  induction u with
  | nil =>
    refine ⟨0, Nat.le_refl _, ?_⟩
    simp only [List.nil_append]
    cases h : p ++ v with
    | nil => simp at h; simp [find, h.1]
    | cons c s =>
      have : p.isPrefixOf (c :: s) = true := by rw [← h]; simp
      simp [find, this]
  | cons a u ih =>
    obtain ⟨i, hi, e⟩ := ih
    simp only [List.cons_append, find]
    by_cases h : p.isPrefixOf (a :: (u ++ p ++ v)) = true
    · exact ⟨0, by omega, by simp only [List.append_assoc] at h ⊢; simp [h]⟩
    · refine ⟨i + 1, by simp; omega, ?_⟩
      rw [if_neg h, e]; rfl

private theorem net_cons (c : UInt8) (s : Str) : net (c :: s) = (if c = 62 then 1 else if c = 60 then -1 else 0) + net s := rfl

private theorem colons_run (w : Str) : ∀ (x : Str) (d : UInt8) (y : Str),
    (∀ a z, x ++ d :: y = a ++ 58 :: 58 :: z → a.length < x.length → net z ≠ 0) →
    ∃ d' y', x ++ d :: y = d' :: y' ∧
    lastColons (net (d :: y)) d (x.reverse ++ w) = lastColons (net (x ++ d :: y)) d' w := by
  intro x
  induction hn : x.length generalizing x with
  | zero =>
    intro d y _
    have : x = [] := List.length_eq_zero_iff.1 hn
    subst this
    exact ⟨d, y, rfl, rfl⟩
  | succ n ih =>
    intro d y h
    rcases List.eq_nil_or_concat x with rfl | ⟨x', c, rfl⟩
    · simp at hn
    · simp only [List.concat_eq_append, List.length_append, List.length_cons, List.length_nil] at hn
      obtain ⟨d', y', e1, e2⟩ := ih x' (by omega) c (d :: y) (by
        intro a z e hl
        exact h a z (by rw [List.concat_eq_append, List.append_assoc]; exact e) (by omega))
      refine ⟨d', y', by rw [List.concat_eq_append, List.append_assoc]; exact e1, ?_⟩
      have e3 : x'.concat c ++ d :: y = x' ++ c :: d :: y := by simp [List.concat_eq_append]
      rw [e3, ← e2]
      simp only [List.concat_eq_append, List.reverse_append, List.reverse_cons, List.reverse_nil, List.nil_append,
        List.cons_append, lastColons]
      by_cases h1 : c = 62
      · rw [if_pos h1, net_cons c, if_pos h1, Int.add_comm]
      · rw [if_neg h1]
        by_cases h2 : c = 60
        · rw [if_pos h2, net_cons c, if_neg h1, if_pos h2]
          congr 1; omega
        · rw [if_neg h2, net_cons c, if_neg h1, if_neg h2, Int.zero_add, if_neg]
          rintro ⟨rfl, h3, rfl⟩
          refine h x' y (by simp [List.concat_eq_append]) (by omega) ?_
          rw [net_cons] at h3
          simpa using h3

/-- Spec: `base` is a name qualified by `P`: `P::Q`, the two colons not within template brackets of `Q`, nor any in `Q`
that are not within its template brackets. -/
structure Qualified (P Q : Str) : Prop where
  net : net Q = 0
  head : Q.head? ≠ some 58
  last : Q.getLast? ≠ some 60
  inner : ∀ a z, Q = a ++ 58 :: 58 :: z → Bases.net z ≠ 0

private theorem first_angle (l : UInt8) (h : l ≠ 60) : (if l = 62 then (1 : Int) else 0) = net [l] := by
  simp [net, h]

/-- C73: a base class qualified by something that depends on a template parameter is named with the keyword `typename`. -/
theorem C73_typename (targs P Q p : Str) (hq : Qualified P Q) (hp : Word p P) (ht : Word p targs) :
    typenameNeeded targs (P ++ [58, 58] ++ Q) = true := by
  have hfound : ∃ l r, (P ++ [58, 58] ++ Q).reverse = l :: r ∧ lastColons (if l = 62 then 1 else 0) l r = some P.length := by
    rcases List.eq_nil_or_concat Q with rfl | ⟨Q', l, rfl⟩
    · refine ⟨58, 58 :: P.reverse, by simp, ?_⟩
      simp [lastColons]
    · have hl : l ≠ 60 := by
        have := hq.last
        simpa [List.concat_eq_append] using this
      refine ⟨l, Q'.reverse ++ 58 :: 58 :: P.reverse, by simp [List.concat_eq_append], ?_⟩
      rw [first_angle l hl]
      obtain ⟨d', y', e1, e2⟩ := colons_run (58 :: 58 :: P.reverse) Q' l [] (by
        intro a z e _
        exact hq.inner a z (by rw [List.concat_eq_append]; exact e))
      rw [e2]
      have hd' : d' ≠ 58 := by
        have := hq.head
        rw [List.concat_eq_append, e1] at this
        simpa using this
      have hnet : net (Q' ++ [l]) = 0 := by
        have := hq.net
        rwa [List.concat_eq_append] at this
      rw [hnet]
      simp [lastColons, hd']
  obtain ⟨l, r, e1, e2⟩ := hfound
  have hp' := hp
  obtain ⟨u, v, hP, hi, hu, hv⟩ := hp'
  have hw : Word p (P ++ [58, 58] ++ Q) := by
    refine ⟨u, v ++ [58, 58] ++ Q, by rw [hP]; simp, hi, hu, ?_⟩
    intro c hc
    cases v with
    | nil => simp at hc; subst hc; rfl
    | cons a v => exact hv c (by simpa using hc)
  have m1 := tokens_complete _ _ p (Nat.le_refl _) hw
  have m2 := tokens_complete _ _ p (Nat.le_refl _) ht
  obtain ⟨i, hi', ef⟩ := find_le p (v ++ [58, 58] ++ Q) u
  have ef' : find p (P ++ [58, 58] ++ Q) = some i := by
    rw [← ef, hP]; simp
  have hpl : 0 < p.length := by
    obtain ⟨c, r, rfl, _⟩ := hi
    simp
  have hlt : i < P.length := by
    rw [hP]; simp only [List.length_append]; omega
  unfold typenameNeeded
  rw [e1]
  simp only [e2]
  rw [List.any_eq_true]
  refine ⟨p, ?_, ?_⟩
  · rw [List.mem_filter]
    exact ⟨m1, by simpa [tokens] using m2⟩
  · rw [ef']; simpa using hlt

/-- C73: a base class that is not qualified outside its template arguments is named without `typename`, which would not
be allowed there. -/
theorem C73_unqualified (targs base : Str) (hl : base.getLast? ≠ some 60)
    (h : ∀ a z, base = a ++ 58 :: 58 :: z → net z ≠ 0) : typenameNeeded targs base = false := by
  rcases List.eq_nil_or_concat base with rfl | ⟨Q, l, rfl⟩
  · rfl
  · have hl : l ≠ 60 := by simpa [List.concat_eq_append] using hl
    obtain ⟨d', y', e1, e2⟩ := colons_run [] Q l [] (by
      intro a z e _
      exact h a z (by rw [List.concat_eq_append]; exact e))
    have e3 : (Q.concat l).reverse = l :: Q.reverse := by simp [List.concat_eq_append]
    unfold typenameNeeded
    rw [e3]
    simp only [List.append_nil] at e2
    simp only [first_angle l hl, e2]
    simp [lastColons]

/-- C73: nor is it used when no identifier of the template parameter list occurs in the name, in particular outside templates. -/
theorem C73_plain (targs base : Str)
    (h : ∀ p, Ident p → (∃ u v, targs = u ++ p ++ v) → ¬ ∃ u v, base = u ++ p ++ v) : typenameNeeded targs base = false := by
  unfold typenameNeeded
  split
  · rfl
  · split
    · rfl
    · have : (tokens base).filter (tokens targs).contains = [] := by
        rw [List.filter_eq_nil_iff]
        intro p hp hc
        have h1 := tokens_sound _ _ p hp
        have h2 := tokens_sound _ _ p (by simpa [tokens] using hc)
        exact h p h1.1 h2.2 h1.2
      rw [this]; rfl

/-! ### C73: where it is false, and cases -/

/-- `class D : public T::template X<int> {` with the parameter `T`: the name in the action runs two words together. -/
theorem C73_template_fails :
    bases true true (b "< class T > ") ⟨b "class", b "D", b ":", [b "public", b "T", b "::", b "template", b "X", b "<", b "int", b ">",
      b "{"]⟩ = some ([b "classdesc::base_cast<typename T::templateX< int >  >::cast(arg)"], ⟨b "int", b ">", b "{", []⟩) := by
  decide +kernel

/-- `struct D : decltype(f(1,2)) {`: a comma within parentheses makes two base classes out of one. -/
theorem C73_comma_fails :
    (bases true false [] ⟨b "struct", b "D", b ":", [b "decltype", b "(", b "f", b "(", b "1", b ",", b "2", b ")", b ")", b "{"]⟩).map
      Prod.fst = some [b "classdesc::base_cast<decltype(f(1 >::cast(arg)", b "classdesc::base_cast<2)) >::cast(arg)"] := by
  decide +kernel

/-- `struct D : N<T>::B<(1<<2)> {`: the shift operator hides the qualification, and `typename` is missing. -/
theorem C73_shift_fails : typenameNeeded (b "< class T > ") (b "N< T > ::B< ( 1 << 2 ) > ") = false := by
  decide +kernel

/-- `class D : public virtual A, B, protected C<int, D<E>>::F {`: with -respect_private only `A` remains, without it all
three. -/
example : (bases true true [] ⟨b "class", b "D", b ":", [b "public", b "virtual", b "A", b ",", b "B", b ",", b "protected", b "C",
    b "<", b "int", b ",", b "D", b "<", b "E", b ">>", b "::", b "F", b "{"]⟩).map Prod.fst =
    some [b "classdesc::base_cast<A >::cast(arg)"] := by decide +kernel

example : (bases false true [] ⟨b "class", b "D", b ":", [b "public", b "virtual", b "A", b ",", b "B", b ",", b "protected", b "C",
    b "<", b "int", b ",", b "D", b "<", b "E", b ">>", b "::", b "F", b "{"]⟩).map Prod.fst =
    some [b "classdesc::base_cast<A >::cast(arg)", b "classdesc::base_cast<B >::cast(arg)",
      b "classdesc::base_cast<C< int , D < E >> ::F >::cast(arg)"] := by decide +kernel

private def exBases : List Base := [⟨[b "public", b "virtual"], [(b "A", none)]⟩,
  ⟨[b "protected"], [(b "C", some [b "<", b "D", b "<", b "E", b ">>"]), (b "::", none), (b "F", none)]⟩]

example : ∀ x ∈ exBases, x.Ok := by
  intro x hx
  simp only [exBases, List.mem_cons, List.not_mem_nil, or_false] at hx
  rcases hx with rfl | rfl
  · refine ⟨by decide +kernel, by decide, by unfold WordOk; decide +kernel, ?_⟩
    intro p hp g hg
    simp only [List.mem_cons, List.not_mem_nil, or_false] at hp
    subst hp; cases hg
  · refine ⟨by decide +kernel, by decide, by unfold WordOk; decide +kernel, ?_⟩
    intro p hp g hg
    simp only [List.mem_cons, List.not_mem_nil, or_false] at hp
    rcases hp with rfl | rfl | rfl
    · cases hg
      refine ⟨rfl, ?_, by decide +kernel⟩
      intro k h0 hk
      have : k = 1 ∨ k = 2 ∨ k = 3 ∨ k = 4 := by simp at hk; omega
      rcases this with rfl | rfl | rfl | rfl <;> decide +kernel
    · cases hg
    · cases hg

/-- `T::B<C::D>` in a template with the parameter `T`. -/
example : typenameNeeded (b "< class T > ") (b "T::B< C :: D > ") = true := by decide +kernel

example : Qualified (b "T") (b "B< C :: D > ") := by
  refine ⟨by decide +kernel, by decide +kernel, by decide +kernel, ?_⟩
  intro a z e
  have hl := congrArg List.length e
  have hz : z = (b "B< C :: D > ").drop (a.length + 2) := by
    rw [e]
    rw [show a ++ 58 :: 58 :: z = (a ++ [58, 58]) ++ z by simp, List.drop_left' (by simp)]
  have ha : (b "B< C :: D > ")[a.length]? = some 58 ∧ (b "B< C :: D > ")[a.length + 1]? = some 58 := by
    rw [e]; simp
  have key : ∀ k : Fin 12, ((b "B< C :: D > ")[k.val]? = some 58 ∧ (b "B< C :: D > ")[k.val + 1]? = some 58) →
      net ((b "B< C :: D > ").drop (k.val + 2)) ≠ 0 := by decide +kernel
  have hlt : a.length < 12 := by
    have : (b "B< C :: D > ").length = 12 := by decide +kernel
    rw [this] at hl
    simp at hl; omega
  rw [hz]
  exact key ⟨a.length, hlt⟩ ha

/-! ### C74: specification -/

/-- Spec: parts of the declaration of a template parameter before its name: words, punctuation, and template brackets with
what is between them. -/
inductive Part
  | word (w : Str)
  | punct (t : Str)
  | group (inner : Str)

def Part.Ok : Part → Prop
  | .word w => w ≠ [] ∧ ∀ c ∈ w, idChar c = true
  | .punct t => t ≠ [] ∧ ∀ c ∈ t, idChar c = false ∧ Tok.isSpace c = false ∧ c ≠ 60 ∧ c ≠ 62 ∧ c ≠ 61 ∧ c ≠ 44 ∧ c ≠ 46
  | .group inner => net inner = 0 ∧ ∀ k, net (inner.take k) ≤ 0

def Part.text : Part → Str
  | .word w => w ++ [32]
  | .punct t => t ++ [32]
  | .group inner => 60 :: inner ++ [62, 32]

/-- Spec: a named template parameter: `class T`, `int N`, `class... A`, `template <class> class C`. -/
structure Param where
  kind : List Part
  pack : Bool
  name : Str

structure Param.Ok (p : Param) : Prop where
  kind : ∀ x ∈ p.kind, x.Ok
  name : p.name ≠ []
  ident : ∀ c ∈ p.name, idChar c = true

def dots (pack : Bool) : Str := if pack = true then [46, 46, 46] else []

def Param.text (p : Param) : Str := (p.kind.map Part.text).flatten ++ dots p.pack ++ p.name ++ [32]

/-- The argument made from a parameter. -/
def Param.arg (p : Param) : Str := p.name ++ dots p.pack

def sepBy (sep : Str) : List Str → Str
  | [] => []
  | [x] => x
  | x :: y :: r => x ++ sep ++ sepBy sep (y :: r)

/-- Spec: the text of a parameter list as delivered by the scanner, and the argument list. -/
def paramList (ps : List Param) : Str := [60, 32] ++ sepBy [44, 32] (ps.map Param.text) ++ [62, 32]
def argList (ps : List Param) : Str := [60] ++ sepBy [44] (ps.map Param.arg) ++ [62]

/-! ### C74: proofs -/

private theorem skipAngle_len : ∀ (s : Str) (c : Nat) (t : Str), skipAngle c s = some t → t.length < s.length := by
  intro s
  induction s with
  | nil => intro c t h; simp [skipAngle] at h
  | cons a s ih =>
    intro c t h
    simp only [skipAngle] at h
    generalize (if a = 60 then c + 1 else if a = 62 then c - 1 else c) = c' at h
    split at h
    · cases h; simp
    · have := ih _ _ h; simp; omega

private theorem skipDef_len : ∀ (s : Str) (c : Int) (x : UInt8 × Str), skipDef c s = some x → x.2.length < s.length := by
  intro s
  induction s with
  | nil => intro c t h; simp [skipDef] at h
  | cons a s ih =>
    intro c t h
    simp only [skipDef] at h
    split at h
    · cases h; simp
    · have := ih _ _ h; simp; omega

private theorem dropWhile_len (p : UInt8 → Bool) (s : Str) : (s.dropWhile p).length ≤ s.length := by
  induction s with
  | nil => simp
  | cons c s ih =>
    rw [List.dropWhile_cons]
    split
    · simp; omega
    · simp

private theorem fuel : ∀ (n m : Nat) (s tok ell r : Str), s.length ≤ n → s.length ≤ m →
    targsLoop n s tok ell r = targsLoop m s tok ell r := by
  intro n
  induction n with
  | zero =>
    intro m s tok ell r hn hm
    have : s = [] := List.length_eq_zero_iff.1 (by omega)
    subst this
    cases m <;> rfl
  | succ n ih =>
    intro m s tok ell r hn hm
    cases s with
    | nil => cases m <;> rfl
    | cons c s =>
      cases m with
      | zero => simp at hm
      | succ m =>
        simp only [List.length_cons] at hn hm
        simp only [targsLoop]
        by_cases hc : idChar c = true
        · rw [if_pos hc, if_pos hc]; exact ih _ _ _ _ _ (by omega) (by omega)
        · rw [if_neg hc, if_neg hc]
          have hl := dropWhile_len Tok.isSpace (c :: s)
          simp only [List.length_cons] at hl
          cases hd : (c :: s).dropWhile Tok.isSpace with
          | nil => rfl
          | cons d s' =>
            rw [hd] at hl
            simp only [List.length_cons] at hl
            simp only
            split
            · cases hs : skipAngle 1 s' with
              | none => rfl
              | some t =>
                have := skipAngle_len _ _ _ hs
                exact ih _ _ _ _ _ (by omega) (by omega)
            · split
              · cases hs : skipDef 0 (d :: s') with
                | none => rfl
                | some t =>
                  have := skipDef_len _ _ _ hs
                  simp only [List.length_cons] at this
                  exact ih _ _ _ _ _ (by omega) (by omega)
              · split
                · exact ih _ _ _ _ _ (by omega) (by omega)
                · split
                  · rename_i hid
                    have : (d :: s').length ≤ s.length := by
                      by_cases hsp : Tok.isSpace c = true
                      · rw [List.dropWhile_cons, if_pos hsp] at hd
                        rw [← hd]
                        exact dropWhile_len _ _
                      · rw [List.dropWhile_cons, if_neg hsp] at hd
                        cases hd
                        exact absurd hid hc
                    exact ih _ _ _ _ _ (by omega) (by omega)
                  · split
                    · exact ih _ _ _ _ _ (by omega) (by omega)
                    · exact ih _ _ _ _ _ (by omega) (by omega)

private def go (s tok ell r : Str) : Option Str := targsLoop s.length s tok ell r

private theorem go_nil (tok ell r : Str) : go [] tok ell r = some r := rfl

private theorem go_id {c : UInt8} (h : idChar c = true) (s tok ell r : Str) : go (c :: s) tok ell r = go s (tok ++ [c]) ell r := by
  simp only [go, List.length_cons, targsLoop, if_pos h]

/-- What the loop does at a character that is neither part of a word nor space. -/
private def act (d : UInt8) (s' tok ell r : Str) : Option Str :=
  if d = 60 then (skipAngle 1 s').bind fun s' => go s' [] ell r
  else if d = 61 then (skipDef 0 (d :: s')).bind fun x => go x.2 [] [] (r ++ tok ++ ell ++ [x.1])
  else if d = 62 ∨ d = 44 then go s' [] [] (r ++ tok ++ ell ++ [d])
  else if idChar d = true then go (d :: s') [] ell r
  else if d = 46 then go s' [] (ell ++ [d]) r
  else go s' [] ell r

private theorem go_other {c : UInt8} (h : idChar c = false) (s tok ell r : Str) : go (c :: s) tok ell r =
    match (c :: s).dropWhile Tok.isSpace with
    | [] => some r
    | d :: s' => act d s' tok ell r := by
  have h' : ¬ idChar c = true := by simp [h]
  simp only [go, List.length_cons, targsLoop, if_neg h']
  have hl := dropWhile_len Tok.isSpace (c :: s)
  simp only [List.length_cons] at hl
  cases hd : (c :: s).dropWhile Tok.isSpace with
  | nil => rfl
  | cons d s' =>
    rw [hd] at hl
    simp only [List.length_cons] at hl
    simp only [act, go]
    split
    · cases hs : skipAngle 1 s' with
      | none => rfl
      | some t =>
        have := skipAngle_len _ _ _ hs
        exact fuel _ _ _ _ _ _ (by omega) (by omega)
    · split
      · cases hs : skipDef 0 (d :: s') with
        | none => rfl
        | some t =>
          have := skipDef_len _ _ _ hs
          simp only [List.length_cons] at this
          exact fuel _ _ _ _ _ _ (by omega) (by omega)
      · split
        · exact fuel _ _ _ _ _ _ (by omega) (by omega)
        · split
          · rename_i hid
            have : (d :: s').length ≤ s.length := by
              by_cases hsp : Tok.isSpace c = true
              · rw [List.dropWhile_cons, if_pos hsp] at hd
                rw [← hd]
                exact dropWhile_len _ _
              · rw [List.dropWhile_cons, if_neg hsp] at hd
                cases hd
                exact absurd hid h'
            exact fuel _ _ _ _ _ _ (by omega) (by omega)
          · split
            · exact fuel _ _ _ _ _ _ (by omega) (by omega)
            · exact fuel _ _ _ _ _ _ (by omega) (by omega)

private theorem go_direct {d : UInt8} (h : idChar d = false) (hs : Tok.isSpace d = false) (s tok ell r : Str) :
    go (d :: s) tok ell r = act d s tok ell r := by
  rw [go_other h]
  simp [List.dropWhile_cons, hs]

private theorem go_space {d : UInt8} (hs : Tok.isSpace d = false) (s tok ell r : Str) :
    go (32 :: d :: s) tok ell r = act d s tok ell r := by
  rw [go_other (by decide)]
  have : Tok.isSpace 32 = true := by decide
  simp [List.dropWhile_cons, hs, this]

/-- A character that does not end a parameter: what was read before it is forgotten. -/
private theorem act_forget {d : UInt8} (h1 : d ≠ 61) (h2 : d ≠ 62) (h3 : d ≠ 44) (hs : Tok.isSpace d = false) (s tok ell r : Str) :
    act d s tok ell r = go (d :: s) [] ell r := by
  by_cases hi : idChar d = true
  · have h60 : d ≠ 60 := by rintro rfl; exact absurd hi (by decide)
    simp [act, h1, h2, h3, hi, h60]
  · rw [go_direct (by simpa using hi) hs]
    simp [act, h1, h2, h3]

private theorem go_word : ∀ (w : Str), (∀ c ∈ w, idChar c = true) → ∀ s tok ell r, go (w ++ s) tok ell r = go s (tok ++ w) ell r := by
  intro w
  induction w with
  | nil => intro _ s tok ell r; simp
  | cons c w ih =>
    intro h s tok ell r
    rw [List.cons_append, go_id (h c (.head _)), ih (fun d hd => h d (.tail _ hd))]
    simp

private theorem id_not_space {c : UInt8} (h : idChar c = true) : Tok.isSpace c = false := by
  have : ∀ k : Fin 256, idChar (UInt8.ofNat k.val) = true → Tok.isSpace (UInt8.ofNat k.val) = false := by decide +kernel
  have := this ⟨c.toNat, c.toNat_lt⟩
  simpa using this (by simpa using h)

private theorem skip_group : ∀ (inner : Str) (c : Nat) (s : Str), 0 < c → (∀ k, net (inner.take k) < c) → net inner = (c : Int) - 1 →
    skipAngle c (inner ++ 62 :: s) = some s := by
  intro inner
  induction inner with
  | nil =>
    intro c s hc _ hn
    have : c = 1 := by simp [net] at hn; omega
    subst this
    simp [skipAngle]
  | cons a inner ih =>
    intro c s hc hk hn
    have h1 := hk 1
    simp only [List.take_succ_cons, List.take_zero, net] at h1
    have step : ∀ c' : Nat, (c' : Int) = c - (if a = 62 then 1 else if a = 60 then -1 else 0) → 0 < c' →
        skipAngle c' (inner ++ 62 :: s) = some s := by
      intro c' e hc'
      refine ih c' s hc' ?_ ?_
      · intro k
        have := hk (k + 1)
        simp only [List.take_succ_cons, net] at this
        omega
      · simp only [net] at hn; omega
    simp only [List.cons_append, skipAngle]
    by_cases h60 : a = 60
    · have h62 : a ≠ 62 := by rw [h60]; decide
      rw [if_pos h60, if_neg (by omega)]
      exact step _ (by rw [if_neg h62, if_pos h60]; omega) (by omega)
    · rw [if_neg h60]
      by_cases h62 : a = 62
      · rw [if_pos h62] at h1
        rw [if_pos h62, if_neg (by omega)]
        exact step _ (by rw [if_pos h62]; omega) (by omega)
      · rw [if_neg h62, if_neg (by omega)]
        exact step _ (by rw [if_neg h62, if_neg h60]; omega) hc

/-- The character after a part, that is not one that ends a parameter. -/
private def Goes (d : UInt8) : Prop := d ≠ 61 ∧ d ≠ 62 ∧ d ≠ 44 ∧ Tok.isSpace d = false

private theorem go_punct : ∀ (t : Str), (∀ c ∈ t, idChar c = false ∧ Tok.isSpace c = false ∧ c ≠ 60 ∧ c ≠ 62 ∧ c ≠ 61 ∧ c ≠ 44 ∧ c ≠ 46) →
    ∀ (s tok ell r : Str), t ≠ [] → go (t ++ s) tok ell r = go s [] ell r := by
  intro t
  induction t with
  | nil => intro _ s tok ell r h; exact absurd rfl h
  | cons c t ih =>
    intro h s tok ell r _
    obtain ⟨h1, h2, h3, h4, h5, h6, h7⟩ := h c (.head _)
    rw [List.cons_append, go_direct h1 h2]
    have : act c (t ++ s) tok ell r = go (t ++ s) [] ell r := by simp [act, h1, h3, h4, h5, h6, h7]
    rw [this]
    cases t with
    | nil => rfl
    | cons d t => exact ih (fun e he => h e (.tail _ he)) s [] ell r (by simp)

private theorem go_part (x : Part) (hx : x.Ok) {d : UInt8} (hd : Goes d) (s ell r : Str) :
    go (x.text ++ d :: s) [] ell r = go (d :: s) [] ell r := by
  obtain ⟨d1, d2, d3, d4⟩ := hd
  cases x with
  | word w =>
    simp only [Part.text, List.append_assoc, List.cons_append, List.nil_append]
    rw [go_word w hx.2, go_space d4, act_forget d1 d2 d3 d4]
  | punct t =>
    simp only [Part.text, List.append_assoc, List.cons_append, List.nil_append]
    rw [go_punct t hx.2 _ _ _ _ hx.1, go_space d4, act_forget d1 d2 d3 d4]
  | group inner =>
    simp only [Part.text, List.append_assoc, List.cons_append, List.nil_append]
    rw [go_direct (by decide) (by decide)]
    have := skip_group inner 1 (32 :: d :: s) (by omega) (by intro k; have := hx.2 k; omega) (by have := hx.1; omega)
    simp only [act, if_true, this, Option.bind_some]
    rw [go_space d4, act_forget d1 d2 d3 d4]

private theorem part_head (x : Part) (hx : x.Ok) : ∃ d s, x.text = d :: s ∧ Goes d := by
  cases x with
  | word w =>
    cases w with
    | nil => exact absurd rfl hx.1
    | cons c w =>
      have hc := hx.2 c (.head _)
      refine ⟨c, w ++ [32], rfl, ?_, ?_, ?_, id_not_space hc⟩ <;> (rintro rfl; exact absurd hc (by decide))
  | punct t =>
    cases t with
    | nil => exact absurd rfl hx.1
    | cons c t =>
      obtain ⟨_, h2, _, h4, h5, h6, _⟩ := hx.2 c (.head _)
      exact ⟨c, t ++ [32], rfl, h5, h4, h6, h2⟩
  | group inner => exact ⟨60, _, rfl, by decide, by decide, by decide, by decide⟩

private theorem go_parts (d : UInt8) (hd : Goes d) (s ell r : Str) : ∀ (xs : List Part), (∀ x ∈ xs, x.Ok) →
    go ((xs.map Part.text).flatten ++ d :: s) [] ell r = go (d :: s) [] ell r := by
  intro xs
  induction xs with
  | nil => intro _; simp
  | cons x xs ih =>
    intro h
    have ih := ih (fun y hy => h y (.tail _ hy))
    simp only [List.map_cons, List.flatten_cons, List.append_assoc]
    cases xs with
    | nil => simpa using go_part x (h x (.head _)) hd s ell r
    | cons y ys =>
      obtain ⟨e, t, he, hg⟩ := part_head y (h y (.tail _ (.head _)))
      have : (List.map Part.text (y :: ys)).flatten ++ d :: s = e :: (t ++ (List.map Part.text ys).flatten ++ d :: s) := by
        simp [he]
      rw [this] at ih ⊢
      rw [go_part x (h x (.head _)) hg]
      exact ih

private theorem go_dots (pack : Bool) (s r : Str) : go (dots pack ++ s) [] [] r = go s [] (dots pack) r := by
  cases pack with
  | false => rfl
  | true =>
    simp only [dots, if_true, List.cons_append, List.nil_append]
    have h46 : ∀ (s ell r : Str), go (46 :: s) [] ell r = go s [] (ell ++ [46]) r := by
      intro s ell r
      rw [go_direct (by decide) (by decide)]
      simp [act, show idChar 46 = false by decide]
    rw [h46, h46, h46]
    rfl

private theorem name_head (p : Param) (hp : p.Ok) (s : Str) : ∃ d t, dots p.pack ++ (p.name ++ s) = d :: t ∧ Goes d := by
  cases hpk : p.pack with
  | true => exact ⟨46, _, rfl, by decide, by decide, by decide, by decide⟩
  | false =>
    have hn := hp.name
    have hi := hp.ident
    cases h : p.name with
    | nil => exact absurd h hn
    | cons c w =>
      rw [h] at hi
      have hc := hi c (.head _)
      refine ⟨c, w ++ s, rfl, ?_, ?_, ?_, id_not_space hc⟩ <;> (rintro rfl; exact absurd hc (by decide))

/-- A whole parameter with the `,` or `>` after it. -/
private theorem go_param (p : Param) (hp : p.Ok) (d : UInt8) (hd : d = 62 ∨ d = 44) (s r : Str) :
    go (p.text ++ d :: s) [] [] r = go s [] [] (r ++ p.arg ++ [d]) := by
  have e1 : p.text ++ d :: s = (p.kind.map Part.text).flatten ++ (dots p.pack ++ (p.name ++ 32 :: d :: s)) := by
    simp [Param.text]
  obtain ⟨e, t, he, hg⟩ := name_head p hp (32 :: d :: s)
  have hsp : Tok.isSpace d = false := by rcases hd with rfl | rfl <;> decide
  rw [e1, he, go_parts e hg t [] r p.kind hp.kind, ← he, go_dots, go_word p.name hp.ident, go_space hsp]
  rcases hd with rfl | rfl <;> simp [act, Param.arg]

private theorem param_head (p : Param) (hp : p.Ok) (s : Str) : ∃ d t, p.text ++ s = d :: t ∧ Goes d := by
  cases hk : p.kind with
  | nil =>
    obtain ⟨d, t, e, hg⟩ := name_head p hp (32 :: s)
    exact ⟨d, t, by rw [← e]; simp [Param.text, hk], hg⟩
  | cons x xs =>
    obtain ⟨d, t, e, hg⟩ := part_head x (hp.kind x (by rw [hk]; exact .head _))
    refine ⟨d, t ++ (xs.map Part.text).flatten ++ dots p.pack ++ p.name ++ [32] ++ s, ?_, hg⟩
    simp [Param.text, hk, e]

/-- C74: from the parameter list of a class template the argument list is made that names its parameters in order, packs
expanded.  Missing from the full statement: parameters without a name, and parameters whose name is not at the end of
their declaration (`C74_unnamed_fails`, `C74_function_fails`). -/
theorem C74_targs_partial (ps : List Param) (hps : ∀ p ∈ ps, p.Ok) : extractTargs (paramList ps) = some (argList ps) := by
  have main : ∀ (ps : List Param) (p : Param), (∀ q ∈ p :: ps, q.Ok) → ∀ r,
      go (sepBy [44, 32] ((p :: ps).map Param.text) ++ [62, 32]) [] [] r =
        some (r ++ sepBy [44] ((p :: ps).map Param.arg) ++ [62]) := by
    intro ps
    induction ps with
    | nil =>
      intro p h r
      simp only [List.map_cons, List.map_nil, sepBy]
      rw [go_param p (h p (.head _)) 62 (.inl rfl)]
      rw [go_other (by decide)]
      simp [show Tok.isSpace 32 = true by decide]
    | cons q ps ih =>
      intro p h r
      have ih := ih q (fun x hx => h x (.tail _ hx)) (r ++ p.arg ++ [44])
      simp only [List.map_cons, sepBy, List.append_assoc, List.cons_append, List.nil_append] at ih ⊢
      rw [go_param p (h p (.head _)) 44 (.inr rfl)]
      obtain ⟨d, t, e, hg⟩ : ∃ d t, sepBy [44, 32] (q.text :: ps.map Param.text) ++ [62, 32] = d :: t ∧ Goes d := by
        have hq := h q (.tail _ (.head _))
        cases ps with
        | nil => exact param_head q hq [62, 32]
        | cons q' ps =>
          obtain ⟨d, t, e, hg⟩ := param_head q hq ([44, 32] ++ sepBy [44, 32] (q'.text :: ps.map Param.text) ++ [62, 32])
          exact ⟨d, t, by rw [← e]; simp [sepBy], hg⟩
      rw [e] at ih ⊢
      obtain ⟨d1, d2, d3, d4⟩ := hg
      rw [go_space d4, act_forget d1 d2 d3 d4]
      rw [show r ++ p.arg ++ [44] = r ++ (p.arg ++ [44]) by simp, ih]
  show go (32 :: (sepBy [44, 32] (ps.map Param.text) ++ [62, 32])) [] [] [60] = _
  cases ps with
  | nil => decide +kernel
  | cons p ps =>
    obtain ⟨d, t, e, hg⟩ : ∃ d t, sepBy [44, 32] ((p :: ps).map Param.text) ++ [62, 32] = d :: t ∧ Goes d := by
      have hq := hps p (.head _)
      cases ps with
      | nil => exact param_head p hq [62, 32]
      | cons q ps =>
        obtain ⟨d, t, e, hg⟩ := param_head p hq ([44, 32] ++ sepBy [44, 32] (q.text :: ps.map Param.text) ++ [62, 32])
        exact ⟨d, t, by rw [← e]; simp [sepBy], hg⟩
    have h := main ps p hps [60]
    rw [e] at h ⊢
    obtain ⟨d1, d2, d3, d4⟩ := hg
    rw [go_space d4, act_forget d1 d2 d3 d4, h]
    rfl

/-- The text of a default: its commas and closing brackets are inside brackets. -/
def DefOk (d : Str) : Prop := net d = 0 ∧ ∀ i c, d[i]? = some c → c = 62 ∨ c = 44 → net (d.take i) ≠ 0

private theorem skip_def {e : UInt8} (he : e = 62 ∨ e = 44) (s : Str) : ∀ (d : Str) (c : Int), c - net d = 0 →
    (∀ i x, d[i]? = some x → x = 62 ∨ x = 44 → c - net (d.take i) ≠ 0) → skipDef c (d ++ e :: s) = some (e, s) := by
  intro d
  induction d with
  | nil =>
    intro c h _
    have : c = 0 := by simpa [net] using h
    simp [skipDef, he, this]
  | cons a d ih =>
    intro c h hk
    have h0 : (a = 62 ∨ a = 44) → c ≠ 0 := by
      intro ha
      have := hk 0 a rfl ha
      simpa [net] using this
    rw [List.cons_append, skipDef, if_neg (fun q => h0 q.1 q.2)]
    have hn : ∀ l, net (a :: l) = (if a = 62 then 1 else if a = 60 then -1 else 0) + net l := fun l => by simp only [net]
    have hc : (if a = 60 then c + 1 else if a = 62 then c - 1 else c) = c - (if a = 62 then 1 else if a = 60 then -1 else 0) := by
      by_cases h60 : a = 60
      · rw [if_pos h60, if_neg (by rw [h60]; decide), if_pos h60]; omega
      · by_cases h62 : a = 62
        · simp [h62]
        · simp [h60, h62]
    rw [hc]
    refine ih _ (by rw [hn] at h; omega) ?_
    intro i x hi hx
    have := hk (i + 1) x (by simpa using hi) hx
    rw [List.take_succ_cons, hn] at this
    omega

/-- C74, a default argument that is still in the list (those of a definition are removed before, `C74_tokens_partial`): it is left out. -/
theorem C74_default_partial (p : Param) (hp : p.Ok) (d : Str) (hd : DefOk d) :
    extractTargs (b "< " ++ p.text ++ b "=" ++ d ++ b "> ") = some (b "<" ++ p.arg ++ b ">") := by
  have e : b "< " ++ p.text ++ b "=" ++ d ++ b "> " = 60 :: 32 :: (p.text ++ 61 :: (d ++ [62, 32])) := by
    simp [show b "< " = [60, 32] by decide, show b "=" = [61] by decide, show b "> " = [62, 32] by decide]
  rw [e]
  show go (32 :: (p.text ++ 61 :: (d ++ [62, 32]))) [] [] [60] = _
  have step : go (p.text ++ 61 :: (d ++ [62, 32])) [] [] [60] = some (b "<" ++ p.arg ++ b ">") := by
    have e1 : p.text ++ 61 :: (d ++ [62, 32]) = (p.kind.map Part.text).flatten ++ (dots p.pack ++ (p.name ++ 32 :: 61 :: (d ++ [62, 32]))) := by
      simp [Param.text]
    obtain ⟨x, t, he, hg⟩ := name_head p hp (32 :: 61 :: (d ++ [62, 32]))
    rw [e1, he, go_parts x hg t [] _ p.kind hp.kind, ← he, go_dots, go_word p.name hp.ident, go_space (by decide)]
    have hs : skipDef 0 (61 :: (d ++ [62, 32])) = some (62, [32]) := by
      refine skip_def (.inl rfl) [32] (61 :: d) 0 (by simp [net, hd.1]) ?_
      intro i c hi hc
      cases i with
      | zero => simp at hi; subst hi; exact absurd hc (by decide)
      | succ i =>
        have := hd.2 i c (by simpa using hi) hc
        have h61 : ∀ l, net (61 :: l) = net l := fun l => by simp [net]
        rw [List.take_succ_cons, h61]
        omega
    simp only [act, show (61 : UInt8) ≠ 60 by decide, if_false, if_true, hs, Option.bind_some]
    rw [go_other (by decide)]
    simp [show Tok.isSpace 32 = true by decide, Param.arg, show b "<" = [60] by decide, show b ">" = [62] by decide]
  obtain ⟨x, t, he, hg⟩ := param_head p hp (61 :: (d ++ [62, 32]))
  rw [he] at step ⊢
  obtain ⟨d1, d2, d3, d4⟩ := hg
  rw [go_space d4, act_forget d1 d2 d3 d4, step]

/-- `< class T = std::map< int,std::vector<int> > >` -/
example : extractTargs (b "< class T = std::map< int,std::vector<int> > > ") = some (b "<T>") := by decide +kernel

example : DefOk (b " V< W<X>,Y> ") := by
  refine ⟨by decide +kernel, ?_⟩
  intro i c hi hc
  have hl : i < 13 := by
    have := (List.getElem?_eq_some_iff.1 hi).1
    have h13 : (b " V< W<X>,Y> ").length ≤ 13 := by decide +kernel
    omega
  have : ∀ j : Fin 13, ∀ c, (b " V< W<X>,Y> ")[j.val]? = some c → (c = 62 ∨ c = 44) → net ((b " V< W<X>,Y> ").take j.val) ≠ 0 := by
    intro j
    have := (by decide +kernel : ∀ j : Fin 13, ((b " V< W<X>,Y> ")[j.val]? = some 62 ∨ (b " V< W<X>,Y> ")[j.val]? = some 44) →
      net ((b " V< W<X>,Y> ").take j.val) ≠ 0) j
    rintro c h (rfl | rfl)
    · exact this (.inl h)
    · exact this (.inr h)
  exact this ⟨i, hl⟩ c hi hc

/-- `template <class T, unsigned N, template <class, class> class C, std::size_t... I>` -/
example : extractTargs (b "< class T , unsigned N , template < class , class > class C , std :: size_t ...I > ") =
    some (b "<T,N,C,I...>") := by decide +kernel

example : paramList [⟨[.word (b "class")], false, b "T"⟩, ⟨[.word (b "template"), .group (b " class "), .word (b "class")], false, b "C"⟩,
    ⟨[.word (b "std"), .punct (b "::"), .word (b "size_t")], true, b "I"⟩] =
    b "< class T , template < class > class C , std :: size_t ...I > " := by decide +kernel

example : (⟨[.word (b "template"), .group (b " class "), .word (b "class")], false, b "C"⟩ : Param).Ok := by
  refine ⟨?_, by decide, by decide +kernel⟩
  intro x hx
  simp only [List.mem_cons, List.not_mem_nil, or_false] at hx
  rcases hx with rfl | rfl | rfl
  · exact ⟨by decide, by decide +kernel⟩
  · refine ⟨by decide +kernel, ?_⟩
    intro k
    have h : ∀ j : Fin 8, net ((b " class ").take j.val) ≤ 0 := by decide +kernel
    by_cases hk : k < 8
    · exact h ⟨k, hk⟩
    · rw [List.take_of_length_le (by have : (b " class ").length = 7 := by decide +kernel
                                     omega)]
      decide +kernel
  · exact ⟨by decide, by decide +kernel⟩

/-- Parameters without a name, as in `template <class T, class = void> struct A`: the keyword is taken for a name, and the class
is called `A<T,class>`. -/
theorem C74_unnamed_fails : Scan.getTemplateArgs ⟨b "template", b "<", [b "class", b "T", b ",", b "class", b "=", b "void", b ">", b "struct"]⟩ =
      .done (b "< class T , class > ") ⟨b ">", b "struct", []⟩ ∧
    extractTargs (b "< class T , class > ") = some (b "<T,class>") := by decide +kernel

/-- `template <int (*F)(int)>`: nothing is left of the parameter. -/
theorem C74_function_fails : extractTargs (b "< int ( * F ) ( int ) > ") = some (b "<>") := by decide +kernel

/-- A default that is a comparison, in the text itself: `extract_targs` takes the `>` for the end of the parameter. -/
theorem C74_default_fails : extractTargs (b "< bool B = ( 2 > 1 ) , class T > ") = some (b "<B>,T>") := by decide +kernel

/-- Any text in which a template bracket is not closed is read beyond its end. -/
theorem C74_unclosed_fails (w s : Str) (hw : ∀ c ∈ w, idChar c = true) (hs : ∀ k, net (s.take k) ≤ 0) :
    extractTargs (60 :: w ++ 60 :: s) = none := by
  have h : ∀ (s : Str) (c : Nat), (∀ k, net (s.take k) < c) → skipAngle c s = none := by
    intro s
    induction s with
    | nil => intro c _; rfl
    | cons a s ih =>
      intro c hk
      have h1 := hk 1
      simp only [List.take_succ_cons, List.take_zero, net] at h1
      have h0 := hk 0
      simp only [List.take_zero, net] at h0
      have step : ∀ c' : Nat, (c' : Int) = c - (if a = 62 then 1 else if a = 60 then -1 else 0) → skipAngle c' s = none := by
        intro c' e
        apply ih
        intro k
        have := hk (k + 1)
        simp only [List.take_succ_cons, net] at this
        omega
      simp only [skipAngle]
      by_cases h60 : a = 60
      · have h62 : a ≠ 62 := by rw [h60]; decide
        rw [if_pos h60, if_neg (by omega)]
        exact step _ (by rw [if_neg h62, if_pos h60]; omega)
      · rw [if_neg h60]
        by_cases h62 : a = 62
        · rw [if_pos h62] at h1
          rw [if_pos h62, if_neg (by omega)]
          exact step _ (by rw [if_pos h62]; omega)
        · rw [if_neg h62, if_neg (by omega)]
          exact step _ (by rw [if_neg h62, if_neg h60]; omega)
  show go (w ++ 60 :: s) [] [] [60] = none
  rw [go_word w hw, go_direct (by decide) (by decide)]
  simp only [act, if_true]
  rw [h s 1 (by intro k; have := hs k; omega)]
  rfl

example : extractTargs (b "<template<class T") = none := by decide +kernel

/-! ### C74 from the tokens -/

/-- Spec: a parameter and the tokens of its default argument. -/
structure DParam where
  param : Param
  dflt : Option (List Str)

def Part.tok : Part → Str
  | .word w => w
  | .punct t => t
  | .group inner => inner      -- not used: see `DParam.Ok`

def dotToks (pack : Bool) : List Str := if pack = true then [[46], [46], [46]] else []

def DParam.scan (p : DParam) : Scan.TParam := ⟨p.param.kind.map Part.tok ++ dotToks p.param.pack ++ [p.param.name], p.dflt⟩

/-- No template brackets in the parameter, and none, nor commas, at the start of a token of its default. -/
structure DParam.Ok (p : DParam) : Prop where
  param : p.param.Ok
  flat : ∀ x ∈ p.param.kind, ∀ i, x ≠ .group i
  dflt : ∀ d, p.dflt = some d → ∀ t ∈ d, t.head? ≠ some 60 ∧ t.head? ≠ some 62 ∧ t.head? ≠ some 44 ∧ t ≠ []

private theorem word_not {w : Str} (hw : ∀ c ∈ w, idChar c = true) {c : UInt8} (hc : idChar c = false) : w.head? ≠ some c := by
  intro h
  cases w with
  | nil => simp at h
  | cons a w =>
    simp only [List.head?_cons, Option.some.injEq] at h
    subst h
    rw [hw a (.head _)] at hc
    cases hc

private theorem scan_ok (p : DParam) (hp : p.Ok) : p.scan.Ok := by
  refine ⟨?_, hp.dflt⟩
  intro t ht
  simp only [DParam.scan, List.mem_append, List.mem_map, List.mem_singleton] at ht
  rcases ht with (⟨x, hx, rfl⟩ | ht) | rfl
  · have hk := hp.param.kind x hx
    cases x with
    | word w => exact ⟨word_not hk.2 (by decide), word_not hk.2 (by decide), word_not hk.2 (by decide)⟩
    | punct t =>
      cases t with
      | nil => exact absurd rfl hk.1
      | cons c t =>
        obtain ⟨_, _, h3, h4, h5, _⟩ := hk.2 c (.head _)
        exact ⟨by simpa [Part.tok] using h3, by simpa [Part.tok] using h4, by simpa [Part.tok] using h5⟩
    | group i => exact absurd rfl (hp.flat _ hx i)
  · cases hpk : p.param.pack with
    | false => simp [dotToks, hpk] at ht
    | true =>
      simp only [dotToks, hpk, if_true, List.mem_cons, List.not_mem_nil, or_false] at ht
      have : t = [46] := by rcases ht with h | h | h <;> exact h
      subst this
      decide
  · exact ⟨word_not hp.param.ident (by decide), word_not hp.param.ident (by decide), word_not hp.param.ident (by decide)⟩

private theorem joinDot_append (a c : List Str) : Scan.joinDot (a ++ c) = Scan.joinDot a ++ Scan.joinDot c := by
  simp [Scan.joinDot]

private theorem scan_text (p : DParam) (hp : p.Ok) : Scan.joinDot p.scan.toks = p.param.text := by
  have hne : p.param.name ≠ [46] := by
    intro h
    have := hp.param.ident 46 (by rw [h]; exact .head _)
    exact absurd this (by decide)
  have hk : ∀ (xs : List Part), (∀ x ∈ xs, x.Ok) → (∀ x ∈ xs, ∀ i, x ≠ .group i) →
      Scan.joinDot (xs.map Part.tok) = (xs.map Part.text).flatten := by
    intro xs
    induction xs with
    | nil => intro _ _; rfl
    | cons x xs ih =>
      intro h1 h2
      have ih := ih (fun y hy => h1 y (.tail _ hy)) (fun y hy => h2 y (.tail _ hy))
      have hx := h1 x (.head _)
      have e : Scan.joinDot ((x :: xs).map Part.tok) = Scan.joinDot [x.tok] ++ Scan.joinDot (xs.map Part.tok) := by
        rw [← joinDot_append]; rfl
      rw [e, ih, List.map_cons, List.flatten_cons]
      congr 1
      cases x with
      | word w =>
        have : w ≠ [46] := by
          rintro rfl
          exact absurd (hx.2 46 (.head _)) (by decide)
        simp [Scan.joinDot, Part.tok, Part.text, this]
      | punct t =>
        have : t ≠ [46] := by
          rintro rfl
          exact (hx.2 46 (.head _)).2.2.2.2.2.2 rfl
        simp [Scan.joinDot, Part.tok, Part.text, this]
      | group i => exact absurd rfl (h2 _ (.head _) i)
  have hd : Scan.joinDot (dotToks p.param.pack) = dots p.param.pack := by
    cases p.param.pack <;> decide
  simp only [DParam.scan, joinDot_append, hk _ hp.param.kind hp.flat, hd, Param.text, List.append_assoc]
  simp [Scan.joinDot, hne]

theorem scan_oks (ps : List DParam) (hps : ∀ p ∈ ps, p.Ok) : ∀ p ∈ ps.map DParam.scan, p.Ok := by
  intro p hp
  obtain ⟨q, hq, rfl⟩ := List.mem_map.1 hp
  exact scan_ok q (hps q hq)

/-- C74, from the tokens of `template <...>`: default arguments are left out.  Missing: as in `C74_targs_partial`, and the
cases of `C45_default_fails`. -/
theorem C74_tokens_partial (last next : Str) (ps : List DParam) (hps : ∀ p ∈ ps, p.Ok) (post : List Str) :
    ∃ text, Scan.getTemplateArgs ⟨last, [60], Scan.commas Scan.TParam.text (ps.map DParam.scan) ++ [62] :: next :: post⟩ =
        .done text ⟨[62], next, post⟩ ∧ text = paramList (ps.map DParam.param) ∧
      extractTargs text = some (argList (ps.map DParam.param)) := by
  have e := Scan.C45_defaults_partial last next (ps.map DParam.scan) (by
    intro p hp
    obtain ⟨q, hq, rfl⟩ := List.mem_map.1 hp
    exact scan_ok q (hps q hq)) post
  refine ⟨_, e, ?_⟩
  have ht : ∀ (ps : List DParam), (∀ p ∈ ps, p.Ok) →
      Scan.joinDot (Scan.commas Scan.TParam.toks (ps.map DParam.scan)) = sepBy [44, 32] ((ps.map DParam.param).map Param.text) := by
    intro ps
    induction ps with
    | nil => intro _; rfl
    | cons p ps ih =>
      intro h
      have ih := ih (fun q hq => h q (.tail _ hq))
      have hp := scan_text p (h p (.head _))
      cases ps with
      | nil => simpa [Scan.commas, sepBy] using hp
      | cons q ps =>
        simp only [List.map_cons, Scan.commas, sepBy] at ih ⊢
        rw [joinDot_append, hp]
        have : ∀ (x : List Str), Scan.joinDot ([44] :: x) = [44, 32] ++ Scan.joinDot x := by
          intro x; simp [Scan.joinDot]
        rw [this, ih]
        simp
  have e2 : Scan.joinDot ([60] :: (Scan.commas Scan.TParam.toks (ps.map DParam.scan) ++ [[62]])) = paramList (ps.map DParam.param) := by
    have : Scan.joinDot ([60] :: (Scan.commas Scan.TParam.toks (ps.map DParam.scan) ++ [[62]])) =
        Scan.joinDot [[60]] ++ Scan.joinDot (Scan.commas Scan.TParam.toks (ps.map DParam.scan)) ++ Scan.joinDot [[62]] := by
      rw [← joinDot_append, ← joinDot_append]; rfl
    rw [this, ht ps hps]
    rfl
  rw [e2]
  refine ⟨rfl, ?_⟩
  apply C74_targs_partial
  intro p hp
  obtain ⟨q, hq, rfl⟩ := List.mem_map.1 hp
  exact (hps q hq).param

/-! ### C75: which classes get a descriptor -/

private theorem nested_flat : ∀ (a z : Str), (∀ c ∈ a, c ≠ 60 ∧ c ≠ 62) → ∀ st, nested (false :: st) (a ++ z) = nested (false :: st) z := by
  intro a
  induction a with
  | nil => intro z _ st; rfl
  | cons c a ih =>
    intro z h st
    obtain ⟨h1, h2⟩ := h c (.head _)
    have ih := ih z (fun d hd => h d (.tail _ hd)) st
    simp only [List.cons_append, nested, if_neg h1, if_neg h2]
    split <;> exact ih

private theorem nested_end : ∀ (a : Str), (∀ c ∈ a, c ≠ 60 ∧ c ≠ 62 ∧ c ≠ 58) → ∀ st, nested st a = some false := by
  intro a
  induction a with
  | nil => intro _ st; rfl
  | cons c a ih =>
    intro h st
    obtain ⟨h1, h2, h3⟩ := h c (.head _)
    simp only [nested, if_neg h1, if_neg h2]
    rw [if_neg (by rintro ⟨h, _⟩; exact h3 h)]
    exact ih (fun d hd => h d (.tail _ hd)) st

private theorem nested_args (a m z : Str) (ha : ∀ c ∈ a, c ≠ 60 ∧ c ≠ 62) (hm : ∀ c ∈ m, c ≠ 60 ∧ c ≠ 62)
    (hz : ∀ c ∈ z, c ≠ 60 ∧ c ≠ 62 ∧ c ≠ 58) : nested [false] (a ++ 60 :: m ++ 62 :: z) = some false := by
  rw [List.append_assoc, nested_flat a _ ha]
  simp only [List.cons_append, nested, if_true]
  rw [nested_flat m _ hm]
  simp only [nested, if_true, show (62 : UInt8) ≠ 60 by decide, if_false]
  exact nested_end z hz _

private theorem has_false {c : UInt8} {s : Str} (h : ∀ d ∈ s, d ≠ c) : has c s = false := by
  simp only [has, List.contains_eq_mem, decide_eq_false_iff_not]
  intro hc
  exact h c hc rfl

private theorem heads_head (xs : List Base) (rest : List Str) : ∃ t r, heads xs ++ b "{" :: rest = t :: r ∧
    starts ":{" t = true ∧ t ≠ b "<" ∧ t ≠ b "::" := by
  cases xs with
  | nil => exact ⟨b "{", rest, rfl, by decide +kernel, by decide +kernel, by decide +kernel⟩
  | cons x xs => exact ⟨b ":", _, rfl, by decide +kernel, by decide +kernel, by decide +kernel⟩

private theorem qualify_none {t : Str} (h : t ≠ b "::") (n : Nat) (name bef last : Str) (r : List Str) :
    qualify (n + 1) name ⟨bef, last, t, r⟩ = some (name, ⟨bef, last, t, r⟩) := by
  simp [qualify, h]

/-- C75: the definition of a class that is not inside a template is recognised, whether or not it has base classes; a descriptor
is made if and only if it is accessible, with the actions of C73 for the base classes.  Missing: `final` and macros after the
name (`C75_final_fails`). -/
theorem C75_class_partial (respect : Bool) (pre targs key name bef : Str) (priv : Bool) (xs : List Base) (hx : ∀ x ∈ xs, x.Ok) (rest : List Str)
    (hpre : ∀ c ∈ pre, c ≠ 60 ∧ c ≠ 62) (hname : ∀ c ∈ name, c ≠ 60 ∧ c ≠ 62) :
    ∃ as r, classHead respect pre targs [] priv ⟨bef, key, name, heads xs ++ b "{" :: rest⟩ = some (⟨pre ++ name, true, as, !priv⟩, r) ∧
      Acts targs (wanted respect (key = b "class") xs) as ∧ r.tok = b "{" ∧ r.rest = rest := by
  obtain ⟨t, r, e, h1, h2, h3⟩ := heads_head xs rest
  obtain ⟨as, bef', last', ha, eb⟩ := C73_bases_partial respect (key = b "class") targs xs hx key name t r rest e
  refine ⟨as, ⟨bef', last', b "{", rest⟩, ?_, ha, rfl, rfl⟩
  have hn : nested [false] (pre ++ name) = some false := by
    have : nested [false] ((pre ++ name) ++ []) = nested [false] [] :=
      nested_flat _ _ (by intro c hc; rcases List.mem_append.1 hc with h | h; exact hpre c h; exact hname c h) _
    rw [List.append_nil] at this
    rw [this]; rfl
  rw [e]
  cases priv <;> simp [classHead, Rd.next, h2, extractTargs, qualify_none h3, h1, eb, hn, has_false (fun d hd => (hpre d hd).1)]

/-- C75, class templates: the descriptor is for the class with its parameters as arguments. -/
theorem C75_template_partial (respect : Bool) (pre targs key name bef : Str) (ps : List Param) (hps : ∀ p ∈ ps, p.Ok)
    (xs : List Base) (hx : ∀ x ∈ xs, x.Ok) (rest : List Str) (hpre : ∀ c ∈ pre, c ≠ 60 ∧ c ≠ 62) (hname : ∀ c ∈ name, c ≠ 60 ∧ c ≠ 62) :
    ∃ as r, classHead respect pre targs (paramList ps) false ⟨bef, key, name, heads xs ++ b "{" :: rest⟩ =
        some (⟨pre ++ name ++ argList ps, true, as, true⟩, r) ∧
      Acts targs (wanted respect (key = b "class") xs) as ∧ r.tok = b "{" ∧ r.rest = rest := by
  obtain ⟨t, r, e, h1, h2, h3⟩ := heads_head xs rest
  obtain ⟨as, bef', last', ha, eb⟩ := C73_bases_partial respect (key = b "class") targs xs hx key name t r rest e
  refine ⟨as, ⟨bef', last', b "{", rest⟩, ?_, ha, rfl, rfl⟩
  have hm : ∀ (ps : List Param), (∀ p ∈ ps, p.Ok) → ∀ c ∈ sepBy [44] (ps.map Param.arg), c ≠ 60 ∧ c ≠ 62 := by
    intro ps
    induction ps with
    | nil => intro _ c hc; simp [sepBy] at hc
    | cons p ps ih =>
      intro h c hc
      have ih := ih (fun q hq => h q (.tail _ hq)) c
      have hp : c ∈ p.arg → c ≠ 60 ∧ c ≠ 62 := by
        intro hc
        rcases List.mem_append.1 hc with hc | hc
        · have := (h p (.head _)).ident c hc
          constructor <;> (rintro rfl; exact absurd this (by decide))
        · have : c = 46 := by
            unfold dots at hc
            split at hc <;> simp at hc
            exact hc
          subst this; decide
      cases ps with
      | nil => exact hp (by simpa [sepBy] using hc)
      | cons q ps =>
        simp only [List.map_cons, sepBy, List.mem_append, List.mem_singleton] at hc ih
        rcases hc with (hc | hc) | hc
        · exact hp hc
        · subst hc; decide
        · exact ih hc
  have hn : nested [false] (pre ++ (name ++ argList ps)) = some false := by
    have := nested_args (pre ++ name) (sepBy [44] (ps.map Param.arg)) []
      (by intro c hc; rcases List.mem_append.1 hc with h | h; exact hpre c h; exact hname c h) (hm ps hps) (by simp)
    rw [← this]; simp [argList]
  rw [e]
  simp [classHead, Rd.next, h2, C74_targs_partial ps hps, qualify_none h3, h1, eb, hn, has_false (fun d hd => (hpre d hd).1)]

/-- C75, specialisations `A<B::C,3>`, whose arguments may be qualified but contain no template arguments themselves: the name
is taken as written.  Missing: template arguments in the arguments (`C75_specialisation_fails`). -/
theorem C75_specialisation_partial (respect : Bool) (pre targs classargs key name bef : Str) (body : List Str)
    (hb : ∀ t ∈ body, t.head? ≠ some 61 ∧ ∀ c ∈ t, c ≠ 60 ∧ c ≠ 62) (xs : List Base) (hx : ∀ x ∈ xs, x.Ok) (rest : List Str)
    (hpre : ∀ c ∈ pre, c ≠ 60 ∧ c ≠ 62) (hname : ∀ c ∈ name, c ≠ 60 ∧ c ≠ 62) :
    ∃ as r, classHead respect pre targs classargs false ⟨bef, key, name, b "<" :: (body ++ b ">" :: (heads xs ++ b "{" :: rest))⟩ =
        some (⟨pre ++ name ++ Scan.joinDot (b "<" :: (body ++ [b ">"])), true, as, true⟩, r) ∧
      Acts targs (wanted respect (key = b "class") xs) as ∧ r.tok = b "{" ∧ r.rest = rest := by
  obtain ⟨t, r, e, h1, h2, h3⟩ := heads_head xs rest
  have hc : ∀ {c : UInt8} {t : Str}, (∀ d ∈ t, d ≠ 60 ∧ d ≠ 62) → c = 60 ∨ c = 62 → t.head? ≠ some c := by
    intro c t h hcc hh
    have := h c (List.mem_of_mem_head? hh)
    rcases hcc with rfl | rfl
    · exact this.1 rfl
    · exact this.2 rfl
  have eg := Scan.C45_defaults_partial name t [⟨body, none⟩] (by
    intro p hp
    simp only [List.mem_singleton] at hp
    subst hp
    refine ⟨?_, by intro d hd; cases hd⟩
    intro t ht
    exact ⟨hc (hb t ht).2 (.inl rfl), hc (hb t ht).2 (.inr rfl), (hb t ht).1⟩) r
  simp only [Scan.commas, Scan.TParam.text, List.append_nil] at eg
  have eg' : Scan.getTemplateArgs ⟨name, b "<", body ++ b ">" :: t :: r⟩ =
      .done (Scan.joinDot (b "<" :: (body ++ [b ">"]))) ⟨[62], t, r⟩ := eg
  obtain ⟨as, bef', last', ha, eb⟩ := C73_bases_partial respect (key = b "class") targs xs hx (b "<") [62] t r rest e
  refine ⟨as, ⟨bef', last', b "{", rest⟩, ?_, ha, rfl, rfl⟩
  have hn : nested [false] (pre ++ (name ++ Scan.joinDot (b "<" :: (body ++ [b ">"])))) = some false := by
    have := nested_args (pre ++ name) (32 :: Scan.joinDot body) [32]
      (by intro c hc; rcases List.mem_append.1 hc with h | h; exact hpre c h; exact hname c h)
      (by
        intro c hc
        rcases List.mem_cons.1 hc with rfl | hc
        · decide
        · simp only [Scan.joinDot, List.mem_flatMap, List.mem_append] at hc
          obtain ⟨t, ht, hc | hc⟩ := hc
          · exact (hb t ht).2 c hc
          · have : c = 32 := by
              split at hc <;> simp at hc
              exact hc
            subst this; decide)
      (by intro c hc; simp only [List.mem_singleton] at hc; subst hc; decide)
    rw [← this]
    have e1 : Scan.joinDot (b "<" :: (body ++ [b ">"])) = [60, 32] ++ Scan.joinDot body ++ [62, 32] := by
      have : Scan.joinDot (b "<" :: (body ++ [b ">"])) = Scan.joinDot [b "<"] ++ Scan.joinDot body ++ Scan.joinDot [b ">"] := by
        rw [← joinDot_append, ← joinDot_append]; rfl
      rw [this]; rfl
    rw [e1]; simp
  rw [e]
  simp [classHead, Rd.next, eg', qualify_none h3, h1, eb, hn, has_false (fun d hd => (hpre d hd).1)]

/-- C75: no descriptor is made for a class that is not accessible or is inside a template, wherever its definition. -/
theorem C75_none (respect : Bool) (pre targs classargs : Str) (priv : Bool) (h : priv = true ∨ 60 ∈ pre) (r : Rd) (c : Class) (r' : Rd)
    (e : classHead respect pre targs classargs priv r = some (c, r')) : c.described = false := by
  have hcond : ¬ (priv = false ∧ has 60 pre = false) := by
    rintro ⟨a, d⟩
    rcases h with h | h
    · simp [h] at a
    · simp [has, h] at d
  simp only [classHead, Option.bind_eq_bind, Option.bind_eq_some_iff] at e
  obtain ⟨r1, _, x, _, y, _, e⟩ := e
  split at e
  · obtain ⟨z, _, e⟩ := Option.bind_eq_some_iff.1 e
    cases e; rfl
  · cases e; rfl

/-- A class with any token between its name and the colon or brace, such as `final` or a macro, is taken for a declaration: no
descriptor, whatever its bases and members. -/
theorem C75_final_fails (respect : Bool) (pre targs key name bef t : Str) (priv : Bool) (rest : List Str)
    (ht : starts ":{" t = false) (h1 : t ≠ b "<") (h2 : t ≠ b "::") :
    classHead respect pre targs [] priv ⟨bef, key, name, t :: rest⟩ =
      some (⟨pre ++ name, false, [], false⟩, ⟨key, name, t, rest⟩) := by
  simp [classHead, Rd.next, h1, extractTargs, qualify_none h2, ht]

example : starts ":{" (b "final") = false ∧ b "final" ≠ b "<" ∧ b "final" ≠ b "::" := by decide +kernel

/-- `class D final : public B {` -/
example : classHead true (b "::") [] [] false ⟨[], b "class", b "D", [b "final", b ":", b "public", b "B", b "{", b "}", b ";"]⟩ =
    some (⟨b "::D", false, [], false⟩, ⟨b "class", b "D", b "final", [b ":", b "public", b "B", b "{", b "}", b ";"]⟩) := by
  decide +kernel

/-- `struct A<B<int>::C> {`, a specialisation outside any template, gets no descriptor. -/
theorem C75_specialisation_fails : (classHead true (b "::") [] [] false ⟨[], b "struct", b "A", [b "<", b "B", b "<", b "int", b ">", b "::",
    b "C", b ">", b "{", b "}"]⟩).map Prod.fst = some ⟨b "::A< B < int > :: C > ", true, [], false⟩ := by decide +kernel

/-- `struct A<B::C,3> : E {`, with its base class. -/
example : (classHead true (b "::N::") [] [] false ⟨[], b "struct", b "A", [b "<", b "B", b "::", b "C", b ",", b "3", b ">", b ":", b "E",
    b "{", b "}"]⟩).map Prod.fst = some ⟨b "::N::A< B :: C , 3 > ", true, [b "classdesc::base_cast<E >::cast(arg)"], true⟩ := by
  decide +kernel

/-- `template <class T, int N> class A : public B<T> {` -/
example : (classHead true (b "::") (b "< class T , int N > ") (b "< class T , int N > ") false ⟨[], b "class", b "A", [b ":", b "public",
    b "B", b "<", b "T", b ">", b "{", b "}"]⟩).map Prod.fst =
    some ⟨b "::A<T,N>", true, [b "classdesc::base_cast<B< T >  >::cast(arg)"], true⟩ := by decide +kernel

/-! ### Identifiers -/

/-- What the generator takes for the characters of identifiers are the letters, the digits and the underscore. -/
theorem C73_identifiers (c : UInt8) :
    (idStart c = true ↔ c ∈ b "_abcdefghijklmnopqrstuvwxyzABCDEFGHIJKLMNOPQRSTUVWXYZ") ∧
    (idChar c = true ↔ c ∈ b "_abcdefghijklmnopqrstuvwxyzABCDEFGHIJKLMNOPQRSTUVWXYZ0123456789") ∧
    (∀ r, Decl.identStart (c :: r) = true ↔ c ∈ b "_abcdefghijklmnopqrstuvwxyzABCDEFGHIJKLMNOPQRSTUVWXYZ") := by
  have key : ∀ x : Fin 256, (idStart (UInt8.ofNat x.val) = true ↔
        UInt8.ofNat x.val ∈ b "_abcdefghijklmnopqrstuvwxyzABCDEFGHIJKLMNOPQRSTUVWXYZ") ∧
      (idChar (UInt8.ofNat x.val) = true ↔
        UInt8.ofNat x.val ∈ b "_abcdefghijklmnopqrstuvwxyzABCDEFGHIJKLMNOPQRSTUVWXYZ0123456789") ∧
      (Decl.identStart [UInt8.ofNat x.val] = true ↔
        UInt8.ofNat x.val ∈ b "_abcdefghijklmnopqrstuvwxyzABCDEFGHIJKLMNOPQRSTUVWXYZ") := by decide +kernel
  have := key ⟨c.toNat, c.toNat_lt⟩
  simp only [UInt8.ofNat_toNat] at this
  exact ⟨this.1, this.2.1, fun r => this.2.2⟩

end Verif.Bases
