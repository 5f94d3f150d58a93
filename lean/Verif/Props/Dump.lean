import Verif.Dump
/-
C84: the text dumped for an object shows its contents.
-/
namespace Verif.Dump
open Verif.Tok

namespace C84

/-- A name: not empty; its first character is neither a space nor a brace; no dots, no line ends. -/
def Name (n : Str) : Prop := (∀ c ∈ n, c ≠ 46 ∧ c ≠ 10 ∧ c ≠ 123 ∧ c ≠ 125) ∧ ∃ c, n.head? = some c ∧ c ≠ 32

/-- What is printed for a value of a fundamental type. -/
def Word (s : Str) : Prop := s ≠ [] ∧ ∀ c ∈ s, c ≠ 32 ∧ c ≠ 10

/-- The number of elements of an array with these bounds. -/
def size : List Nat → Nat
  | [] => 1
  | n :: ns => n * size ns

mutual
/-- Types whose names are names; bases are classes, and pointers do not point to strings or pointers. -/
def TOk : Ty → Prop
  | .fund => True
  | .str => True
  | .enum => True
  | .obj ns ts => FOk ns ts
  | .seq t => TOk t
  | .arr _ _ t => TOk t
  | .map t => TOk t
  | .smap t => TOk t
  | .ptr t => TOk t ∧ (match t with | .str => False | .ptr _ => False | .arr _ _ _ => False | _ => True)
def FOk : List (Option Str) → List Ty → Prop
  | some n :: ns, t :: ts => Name n ∧ TOk t ∧ FOk ns ts
  | none :: ns, t :: ts => TOk t ∧ (match t with | .obj _ _ => True | _ => False) ∧ FOk ns ts
  | [], [] => True
  | _, _ => False
end

mutual
/-- Values of a type, and what may be printed for the values in them: lines do not end inside. -/
def Has : Ty → V → Prop
  | .fund, .leaf s => Word s
  | .str, .leaf s => 10 ∉ s
  | .enum, .leaf s => 10 ∉ s
  | .obj _ ts, .obj vs => HasL ts vs
  | .seq t, .seq vs => ∀ v ∈ vs, Has t v
  | .arr n dims t, .seq vs => vs.length = size (n :: dims) ∧ ∀ v ∈ vs, Has t v
  | .map t, .map kvs => ∀ x ∈ kvs, (93 ∉ x.1 ∧ 10 ∉ x.1) ∧ Has t x.2
  | .smap t, .map kvs => ∀ x ∈ kvs, 10 ∉ x.1 ∧ Has t x.2
  | .ptr _, .null => True
  | .ptr t, .some v => Has t v ∧ (match v with | .leaf s => s ≠ b "null" | _ => True)
  | _, _ => False
def HasL : List Ty → List V → Prop
  | t :: ts, v :: vs => Has t v ∧ HasL ts vs
  | [], [] => True
  | _, _ => False
end

mutual
/-- The texts printed for the values in an object. -/
def texts : V → List Str
  | .leaf s => [s]
  | .obj vs => textsL vs
  | .seq vs => textsL vs
  | .map kvs => textsM kvs
  | .null => []
  | .some v => texts v
def textsL : List V → List Str
  | [] => []
  | v :: vs => texts v ++ textsL vs
def textsM : List (Str × V) → List Str
  | [] => []
  | (k, v) :: kvs => k :: (texts v ++ textsM kvs)
end

/-- Every brace is closed by its partner. -/
inductive Nested : Str → Prop
  | nil : Nested []
  | char {c r} : c ≠ 123 → c ≠ 125 → Nested r → Nested (c :: r)
  | nest {a r} : Nested a → Nested r → Nested (123 :: (a ++ 125 :: r))

/-- The lines of a text. -/
def linesOf : Str → List Str
  | [] => [[]]
  | c :: s => if c = 10 then [] :: linesOf s else
    match linesOf s with
    | [] => [[c]]
    | l :: ls => (c :: l) :: ls

/-- There are lines that begin in these ways, in this order. -/
inductive Shows : List Str → List Str → Prop
  | nil {ls} : Shows [] ls
  | skip {ps l ls} : Shows ps ls → Shows ps (l :: ls)
  | take {p ps l ls} : p <+: l → Shows ps ls → Shows (p :: ps) (l :: ls)

/-- A name, a colon and a value, indented. -/
def entry (depth : Nat) (name value : Str) : Str := List.replicate depth 32 ++ name ++ b ":" ++ value

def index (name : Str) (i : Nat) : Str := name ++ b "[" ++ b (toString i) ++ b "]"

mutual
/-- What a reader expects to find for an object: an entry for each value in it, by the name of the member and indented by the number of
objects around it; elements of containers by their number, simple ones on one line. -/
def want : Ty → Nat → Str → V → List Str
  | .fund, n, x, .leaf s => [entry n x s]
  | .str, n, x, .leaf s => [entry n x s]
  | .enum, n, x, .leaf s => [entry n x s]
  | .obj ns ts, n, x, .obj vs => wantL ts n x ns vs
  | .seq .fund, n, x, .seq vs => [entry n x ((textsL vs).flatMap fun s => List.replicate n 32 ++ s)]
  | .seq t, n, x, .seq vs => (vs.zipIdx.map fun v => want t n (index x v.2) v.1).flatten
  | .arr _ _ .fund, n, x, .seq vs => [entry n x ((textsL vs).flatMap fun s => List.replicate n 32 ++ s)]
  | .arr _ _ t, n, x, .seq vs => (vs.zipIdx.map fun v => want t n (index x v.2) v.1).flatten
  | .map _, _, _, .map kvs => kvs.map fun x => b "[" ++ x.1 ++ b "]=" ++ (texts x.2).flatten
  | .smap t, n, x, .map kvs => (kvs.zipIdx.map fun v => entry (n + 1) (index x v.2 ++ b "]=") v.1.1 :: want t n (index x v.2) v.1.2).flatten
  | .ptr _, n, x, .null => [entry n x (b "null")]
  | .ptr t, n, x, .some v => want t n x v
  | _, _, _, _ => []
def wantL : List Ty → Nat → Str → List (Option Str) → List V → List Str
  | t :: ts, n, x, some y :: ns, v :: vs => want t (n + 1) y v ++ wantL ts n x ns vs
  | t :: ts, n, x, none :: ns, v :: vs => want t n x v ++ wantL ts n x ns vs
  | _, _, _, _, _ => []
end

mutual
/-- No map from numbers to anything but numbers, no empty arrays. -/
def Simple : Ty → Prop
  | .obj _ ts => SimpleL ts
  | .seq t => Simple t
  | .arr n dims t => Simple t ∧ size (n :: dims) ≠ 0
  | .map .fund => True
  | .map _ => False
  | .smap t => Simple t
  | .ptr t => Simple t
  | _ => True
def SimpleL : List Ty → Prop
  | [] => True
  | t :: ts => Simple t ∧ SimpleL ts
end

end C84
open C84

/-! ### Names -/

private def base (d : Str) : Str := (d.reverse.takeWhile (· != 46)).reverse

private theorem mem_tw {p : UInt8 → Bool} {s : Str} {x : UInt8} (h : x ∈ s.takeWhile p) : p x = true :=
  List.all_eq_true.1 List.all_takeWhile x h

private theorem formatLoop_eq : ∀ (s out tail : Str), formatLoop s out tail =
    out ++ List.replicate (s.count 46) 32 ++ (if 46 ∈ s then base s else tail) ++ b ":" := by
  intro s
  induction s with
  | nil => intro out tail; simp [formatLoop]
  | cons c s ih =>
    intro out tail
    rw [formatLoop]
    by_cases hc : c = 46
    · subst hc
      rw [if_pos rfl, ih]
      have hb : (if 46 ∈ s then base s else s) = base (46 :: s) := by
        by_cases h : 46 ∈ s
        · rw [if_pos h]
          simp only [base, List.reverse_cons]
          rw [List.takeWhile_append]
          split
          · rename_i he
            have : ∀ x ∈ s.reverse, (x != 46) = true := by
              intro x hx
              have e := List.takeWhile_append_dropWhile (p := (· != 46)) (l := s.reverse)
              have h0 : s.reverse.takeWhile (· != 46) = s.reverse := (List.takeWhile_prefix _).eq_of_length he
              rw [← h0] at hx
              exact mem_tw (p := (· != 46)) hx
            have := this 46 (by simpa using h)
            simp at this
          · rfl
        · rw [if_neg h]
          simp only [base, List.reverse_cons]
          rw [List.takeWhile_append_of_pos]
          · simp
          · intro x hx
            simp only [bne_iff_ne]
            rintro rfl
            exact h (by simpa using hx)
      rw [if_pos (List.mem_cons_self), ← hb]
      simp only [List.count_cons_self, List.replicate_succ, List.append_assoc, List.singleton_append, List.cons_append, List.nil_append]
    · rw [if_neg hc, ih]
      have h1 : (c :: s).count 46 = s.count 46 := List.count_cons_of_ne (fun h => hc h)
      rw [h1]
      by_cases h : 46 ∈ s
      · rw [if_pos h, if_pos (List.mem_cons_of_mem _ h)]
        congr 2
        simp only [base, List.reverse_cons]
        rw [List.takeWhile_append]
        split
        · rename_i he
          have h0 : s.reverse.takeWhile (· != 46) = s.reverse := (List.takeWhile_prefix _).eq_of_length he
          have : (46 : UInt8) ∈ s.reverse.takeWhile (· != 46) := by rw [h0]; simpa using h
          have := mem_tw (p := (· != 46)) this
          simp at this
        · rfl
      · rw [if_neg h, if_neg (by simp [h, Ne.symm hc])]

private theorem base_none {d : Str} (h : 46 ∉ d) : base d = d := by
  rw [base, ← List.append_nil d.reverse, List.takeWhile_append_of_pos]
  · simp
  · intro x hx
    simp only [bne_iff_ne]
    rintro rfl
    exact h (by simpa using hx)

private theorem format_eq (d : Str) : format d = List.replicate (ndots d) 32 ++ base d ++ b ":" := by
  rw [format, formatLoop_eq, ndots, List.nil_append]
  by_cases h : 46 ∈ d
  · rw [if_pos h]
  · rw [if_neg h, base_none h]

private theorem base_app {d n : Str} (h : 46 ∉ n) : base (d ++ n) = base d ++ n := by
  simp only [base, List.reverse_append]
  rw [List.takeWhile_append_of_pos]
  · simp
  · intro x hx
    simp only [bne_iff_ne]
    rintro rfl
    exact h (by simpa using hx)

private theorem base_dot (d : Str) : base (d ++ b ".") = [] := by
  simp [base, show b "." = [46] by decide]

private theorem ndots_app {d n : Str} (h : 46 ∉ n) : ndots (d ++ n) = ndots d := by
  simp [ndots, List.count_append, List.count_eq_zero.2 h]

private theorem digits (i : Nat) : ∀ c ∈ b (toString i), 48 ≤ c ∧ c ≤ 57 := by
  intro c hc
  rw [b, show toString i = i.repr from rfl, Nat.toList_repr, List.mem_map] at hc
  obtain ⟨x, hx, rfl⟩ := hc
  have := Nat.isDigit_of_mem_toDigits (by decide) (by decide) hx
  simp only [Char.isDigit, Bool.and_eq_true, decide_eq_true_eq] at this
  obtain ⟨h1, h2⟩ := this
  have a1 : 48 ≤ x.toNat := h1
  have a2 : x.toNat ≤ 57 := h2
  constructor
  · rw [UInt8.le_iff_toNat_le, UInt8.toNat_ofNat']
    show 48 ≤ _
    omega
  · rw [UInt8.le_iff_toNat_le, UInt8.toNat_ofNat']
    show _ ≤ 57
    omega

/-- A name for an object: what stands behind the last dot is a name. -/
private def Path (d : Str) : Prop := Name (base d)

private theorem path_name {n : Str} (h : Name n) : Path n := by
  rw [Path, base_none (fun q => (h.1 46 q).1 rfl)]; exact h

private theorem path_member {d n : Str} (h : Name n) : Path (d ++ b "." ++ n) ∧ ndots (d ++ b "." ++ n) = ndots d + 1 := by
  have h46 : 46 ∉ n := fun q => (h.1 46 q).1 rfl
  constructor
  · rw [Path, base_app h46, base_dot]; exact h
  · rw [ndots_app h46, ndots, ndots, List.count_append]; rfl

private theorem name_app {n m : Str} (h : Name n) (hm : ∀ c ∈ m, c ≠ 46 ∧ c ≠ 10 ∧ c ≠ 123 ∧ c ≠ 125) : Name (n ++ m) := by
  obtain ⟨h1, c, h2, h3⟩ := h
  refine ⟨?_, c, ?_, h3⟩
  · intro x hx
    rcases List.mem_append.1 hx with hx | hx
    · exact h1 x hx
    · exact hm x hx
  · rw [List.head?_append, h2]; rfl

private theorem path_app {d m : Str} (h : Path d) (hm : ∀ c ∈ m, c ≠ 46 ∧ c ≠ 10 ∧ c ≠ 123 ∧ c ≠ 125) :
    Path (d ++ m) ∧ ndots (d ++ m) = ndots d := by
  have h46 : 46 ∉ m := fun q => (hm 46 q).1 rfl
  exact ⟨by rw [Path, base_app h46]; exact name_app h hm, ndots_app h46⟩

private theorem path_elem {d : Str} (h : Path d) (i : Nat) :
    Path (d ++ b "[" ++ b (toString i) ++ b "]") ∧ ndots (d ++ b "[" ++ b (toString i) ++ b "]") = ndots d := by
  rw [List.append_assoc, List.append_assoc]
  refine path_app h ?_
  intro c hc
  rcases List.mem_append.1 hc with hc | hc
  · have : ∀ c ∈ b "[", c ≠ 46 ∧ c ≠ 10 ∧ c ≠ 123 ∧ c ≠ 125 := by decide
    exact this c hc
  rcases List.mem_append.1 hc with hc | hc
  · obtain ⟨h1, h2⟩ := digits i c hc
    refine ⟨?_, ?_, ?_, ?_⟩ <;> rintro rfl <;> revert h1 h2 <;> decide
  · have : ∀ c ∈ b "]", c ≠ 46 ∧ c ≠ 10 ∧ c ≠ 123 ∧ c ≠ 125 := by decide
    exact this c hc

private theorem path_key {d : Str} (h : Path d) : Path (b "[." ++ d ++ b "]=") ∧ ndots (b "[." ++ d ++ b "]=") = ndots d + 1 ∧
    base (b "[." ++ d ++ b "]=") = base d ++ b "]=" := by
  have hb : base (b "[." ++ d) = base d := by
    by_cases h46 : 46 ∈ d
    · simp only [base, List.reverse_append]
      rw [List.takeWhile_append]
      split
      · rename_i he
        have h0 : d.reverse.takeWhile (· != 46) = d.reverse := (List.takeWhile_prefix _).eq_of_length he
        have : (46 : UInt8) ∈ d.reverse.takeWhile (· != 46) := by rw [h0]; simpa using h46
        have := mem_tw (p := (· != 46)) this
        simp at this
      · rfl
    · rw [base_app h46, base_none h46]; rfl
  have e : base (b "[." ++ d ++ b "]=") = base d ++ b "]=" := by rw [base_app (by decide), hb]
  refine ⟨?_, ?_, e⟩
  · rw [Path, e]
    exact name_app h (by decide)
  · rw [ndots_app (by decide), ndots, ndots, List.count_append]
    exact Nat.add_comm _ _

/-! ### Reading the text -/

/-- The text does not begin with spaces and an opening brace. -/
private def Closed (r : Str) : Prop := (r.dropWhile (· == 32)).head? ≠ some 123

private theorem dropWhile_spaces (n : Nat) (s : Str) : (List.replicate n 32 ++ s).dropWhile (· == 32) = s.dropWhile (· == 32) := by
  induction n with
  | zero => rfl
  | succ n ih => rw [List.replicate_succ, List.cons_append, List.dropWhile_cons_of_pos (by decide), ih]

private theorem closed_spaces {n : Nat} {c : UInt8} {s : Str} (h1 : c ≠ 32) (h2 : c ≠ 123) : Closed (List.replicate n 32 ++ c :: s) := by
  rw [Closed, dropWhile_spaces, List.dropWhile_cons_of_neg (by simpa using h1)]
  simpa using h2

private theorem not_closed {n : Nat} {s : Str} : ¬ Closed (List.replicate n 32 ++ 123 :: s) := by
  rw [Closed, dropWhile_spaces, List.dropWhile_cons_of_neg (by decide)]
  simp

private theorem closed_format {d : Str} (h : Path d) (x : Str) : Closed (format d ++ x) := by
  obtain ⟨h1, c, h2, h3⟩ := h
  rw [format_eq]
  cases e : base d with
  | nil => rw [e] at h2; cases h2
  | cons y s =>
    rw [e] at h1 h2
    cases h2
    simp only [List.append_assoc, List.cons_append]
    exact closed_spaces h3 (h1 _ (.head _)).2.2.1

private theorem setw_brace (n : Nat) (c : String) (hc : (b c).length = 1) : setw (n + 2) (b c) = List.replicate (n + 1) 32 ++ b c := by
  rw [setw, hc]
  rfl

private theorem closed_end (n : Nat) (s : Str) : Closed (setw (n + 2) (b "}") ++ s) := by
  rw [setw_brace _ _ (by decide), List.append_assoc]
  exact closed_spaces (by decide) (by decide)

private theorem split {p : UInt8 → Bool} {s1 s2 x1 x2 : Str} (h1 : ∀ c ∈ s1, p c = true) (h2 : ∀ c ∈ s2, p c = true)
    (g1 : ∀ c, x1.head? = some c → p c = false) (g2 : ∀ c, x2.head? = some c → p c = false) (e : s1 ++ x1 = s2 ++ x2) : s1 = s2 ∧ x1 = x2 := by
  have key : ∀ s x : Str, (∀ c ∈ s, p c = true) → (∀ c, x.head? = some c → p c = false) → (s ++ x).takeWhile p = s := by
    intro s x h g
    rw [List.takeWhile_append_of_pos h]
    cases x with
    | nil => simp
    | cons c x => rw [List.takeWhile_cons_of_neg (by rw [g c rfl]; simp), List.append_nil]
  have : s1 = s2 := by rw [← key s1 x1 h1 g1, ← key s2 x2 h2 g2, e]
  subst this
  exact ⟨rfl, List.append_cancel_left e⟩

private theorem split_line {s1 s2 x1 x2 : Str} (h1 : 10 ∉ s1) (h2 : 10 ∉ s2) (e : s1 ++ (b "\n" ++ x1) = s2 ++ (b "\n" ++ x2)) : s1 = s2 ∧ x1 = x2 := by
  have := split (p := (· != 10)) (fun c hc => by simp only [bne_iff_ne]; rintro rfl; exact h1 hc)
    (fun c hc => by simp only [bne_iff_ne]; rintro rfl; exact h2 hc) (fun c hc => by cases hc; rfl) (fun c hc => by cases hc; rfl) e
  exact ⟨this.1, List.append_cancel_left this.2⟩

private theorem basic_inj {d s1 s2 r1 r2 : Str} (h1 : 10 ∉ s1) (h2 : 10 ∉ s2) (e : basic d s1 ++ r1 = basic d s2 ++ r2) : s1 = s2 ∧ r1 = r2 := by
  simp only [basic, List.append_assoc] at e
  exact split_line h1 h2 (List.append_cancel_left e)

private theorem word_line {s : Str} (h : Word s) : 10 ∉ s := fun q => (h.2 10 q).2 rfl

private theorem plain_inj (t : Nat) : ∀ (vs1 vs2 : List V) (r1 r2 : Str), (∀ v ∈ vs1, ∃ s, v = .leaf s ∧ Word s) → (∀ v ∈ vs2, ∃ s, v = .leaf s ∧ Word s) →
    plain (t + 1) vs1 ++ (b "\n" ++ r1) = plain (t + 1) vs2 ++ (b "\n" ++ r2) → vs1 = vs2 ∧ r1 = r2 := by
  have hd : ∀ (vs : List V) (r : Str), (∀ v ∈ vs, ∃ s, v = .leaf s ∧ Word s) → ∀ c, (plain (t + 1) vs ++ (b "\n" ++ r)).head? = some c → (c != 32 && c != 10) = false := by
    intro vs r h c hc
    cases vs with
    | nil => cases hc; rfl
    | cons v vs =>
      obtain ⟨s, rfl, _⟩ := h v (.head _)
      cases hc; rfl
  intro vs1
  induction vs1 with
  | nil =>
    intro vs2 r1 r2 h1 h2 e
    cases vs2 with
    | nil => exact ⟨rfl, List.append_cancel_left e⟩
    | cons v vs2 =>
      obtain ⟨s, rfl, _⟩ := h2 v (.head _)
      have := congrArg List.head? e
      exact absurd this (by simp [plain, setw, List.replicate_succ, show b "\n" = [10] by decide])
  | cons v vs1 ih =>
    intro vs2 r1 r2 h1 h2 e
    obtain ⟨s, rfl, hs⟩ := h1 v (.head _)
    cases vs2 with
    | nil =>
      have := congrArg List.head? e
      exact absurd this (by simp [plain, setw, List.replicate_succ, show b "\n" = [10] by decide])
    | cons v vs2 =>
      obtain ⟨s', rfl, hs'⟩ := h2 v (.head _)
      simp only [plain, List.append_assoc] at e
      have e := List.append_cancel_left e
      have hw : ∀ s : Str, Word s → ∀ c ∈ s, (c != 32 && c != 10) = true := by
        intro s hs c hc
        simpa using hs.2 c hc
      obtain ⟨rfl, e'⟩ := split (p := fun c => c != 32 && c != 10) (hw s hs) (hw s' hs') (hd vs1 r1 (fun v hv => h1 v (.tail _ hv)))
        (hd vs2 r2 (fun v hv => h2 v (.tail _ hv))) e
      obtain ⟨rfl, rfl⟩ := ih vs2 r1 r2 (fun v hv => h1 v (.tail _ hv)) (fun v hv => h2 v (.tail _ hv)) e'
      exact ⟨rfl, rfl⟩

private theorem elems_closed (f : Str → V → Str) (d : Str) (i : Nat) (v : V) (vs : List V) (r : Str) : ¬ Closed (elems f d i (v :: vs) ++ r) := by
  rw [elems, setw_brace _ _ (by decide)]
  simp only [List.append_assoc]
  exact not_closed

private theorem elems_inj {f : Str → V → Str} {d : Str} {P : V → Prop}
    (hf : ∀ (i : Nat) v1 v2 r1 r2, P v1 → P v2 → Closed r1 → Closed r2 → f (d ++ b "[" ++ b (toString i) ++ b "]") v1 ++ r1 =
      f (d ++ b "[" ++ b (toString i) ++ b "]") v2 ++ r2 → v1 = v2 ∧ r1 = r2) :
    ∀ (vs1 vs2 : List V) (i : Nat) (r1 r2 : Str), (∀ v ∈ vs1, P v) → (∀ v ∈ vs2, P v) → Closed r1 → Closed r2 →
      elems f d i vs1 ++ r1 = elems f d i vs2 ++ r2 → vs1 = vs2 ∧ r1 = r2 := by
  intro vs1
  induction vs1 with
  | nil =>
    intro vs2 i r1 r2 h1 h2 c1 c2 e
    cases vs2 with
    | nil => exact ⟨rfl, e⟩
    | cons v vs2 =>
      rw [elems, List.nil_append] at e
      rw [e] at c1
      exact absurd c1 (elems_closed _ _ _ _ _ _)
  | cons v vs1 ih =>
    intro vs2 i r1 r2 h1 h2 c1 c2 e
    cases vs2 with
    | nil =>
      rw [elems.eq_1 f d i, List.nil_append] at e
      rw [← e] at c2
      exact absurd c2 (elems_closed _ _ _ _ _ _)
    | cons v' vs2 =>
      simp only [elems, List.append_assoc] at e
      have e := List.append_cancel_left (List.append_cancel_left e)
      have := hf i v v' _ _ (h1 v (.head _)) (h2 v' (.head _)) (closed_end _ _) (closed_end _ _) (by simpa only [List.append_assoc] using e)
      obtain ⟨rfl, e'⟩ := this
      have e' := List.append_cancel_left (List.append_cancel_left e')
      obtain ⟨rfl, rfl⟩ := ih vs2 (i + 1) r1 r2 (fun v hv => h1 v (.tail _ hv)) (fun v hv => h2 v (.tail _ hv)) c1 c2 e'
      exact ⟨rfl, rfl⟩

private theorem pairs_closed (f : Str → Str → V → Str) (d : Str) (i : Nat) (v : Str × V) (vs : List (Str × V)) (r : Str) :
    ¬ Closed (pairs f d i (v :: vs) ++ r) := by
  obtain ⟨k, v⟩ := v
  rw [pairs, setw_brace _ _ (by decide)]
  simp only [List.append_assoc]
  exact not_closed

private theorem pairs_inj {f : Str → Str → V → Str} {d : Str} {P : Str × V → Prop}
    (hf : ∀ (i : Nat) (x1 x2 : Str × V) r1 r2, P x1 → P x2 →
      f x1.1 (d ++ b "[" ++ b (toString i) ++ b "]") x1.2 ++ (setw (ndots d + 2) (b "}") ++ r1) =
      f x2.1 (d ++ b "[" ++ b (toString i) ++ b "]") x2.2 ++ (setw (ndots d + 2) (b "}") ++ r2) → x1 = x2 ∧ r1 = r2) :
    ∀ (vs1 vs2 : List (Str × V)) (i : Nat) (r1 r2 : Str), (∀ v ∈ vs1, P v) → (∀ v ∈ vs2, P v) → Closed r1 → Closed r2 →
      pairs f d i vs1 ++ r1 = pairs f d i vs2 ++ r2 → vs1 = vs2 ∧ r1 = r2 := by
  intro vs1
  induction vs1 with
  | nil =>
    intro vs2 i r1 r2 h1 h2 c1 c2 e
    cases vs2 with
    | nil => exact ⟨rfl, e⟩
    | cons v vs2 =>
      rw [pairs, List.nil_append] at e
      rw [e] at c1
      exact absurd c1 (pairs_closed _ _ _ _ _ _)
  | cons v vs1 ih =>
    intro vs2 i r1 r2 h1 h2 c1 c2 e
    cases vs2 with
    | nil =>
      rw [pairs.eq_1 f d i, List.nil_append] at e
      rw [← e] at c2
      exact absurd c2 (pairs_closed _ _ _ _ _ _)
    | cons v' vs2 =>
      obtain ⟨k, v⟩ := v
      obtain ⟨k', v'⟩ := v'
      simp only [pairs, List.append_assoc] at e
      have e := List.append_cancel_left (List.append_cancel_left e)
      have := hf i (k, v) (k', v') _ _ (h1 _ (.head _)) (h2 _ (.head _)) (by simpa only [List.append_assoc] using e)
      obtain ⟨hx, e'⟩ := this
      cases hx
      have e' := List.append_cancel_left e'
      obtain ⟨rfl, rfl⟩ := ih vs2 (i + 1) r1 r2 (fun v hv => h1 v (.tail _ hv)) (fun v hv => h2 v (.tail _ hv)) c1 c2 e'
      exact ⟨rfl, rfl⟩

private theorem count_eq (n : Nat) (dims : List Nat) : count n dims = size (n :: dims) := by
  have : ∀ (l : List Nat) (m : Nat), l.foldl (· * ·) m = m * size l := by
    intro l
    induction l with
    | nil => intro m; simp [size]
    | cons x l ih => intro m; rw [List.foldl_cons, ih, size, Nat.mul_assoc]
  rw [count, this, size]

private theorem container_inj {t : Ty} {d : Str} (hd : Path d) (hn : 1 ≤ ndots d)
    (hf : ∀ d v1 v2 r1 r2, Path d → 1 ≤ ndots d → Has t v1 → Has t v2 → Closed r1 → Closed r2 → dump t d v1 ++ r1 = dump t d v2 ++ r2 → v1 = v2 ∧ r1 = r2)
    {vs1 vs2 : List V} {r1 r2 : Str} (h1 : ∀ v ∈ vs1, Has t v) (h2 : ∀ v ∈ vs2, Has t v) (c1 : Closed r1) (c2 : Closed r2)
    (e : container (isFund t) (dump t) d vs1 ++ r1 = container (isFund t) (dump t) d vs2 ++ r2) : vs1 = vs2 ∧ r1 = r2 := by
  cases ht : isFund t with
  | true =>
    have : t = .fund := by cases t <;> simp_all [isFund]
    subst this
    have key : ∀ v, Has .fund v → ∃ s, v = .leaf s ∧ Word s := by
      intro v hv
      cases v <;> first | exact ⟨_, rfl, hv⟩ | exact absurd hv (by simp [Has])
    simp only [ht, container, if_true, List.append_assoc] at e
    obtain ⟨m, hm⟩ : ∃ m, ndots d = m + 1 := ⟨ndots d - 1, by omega⟩
    rw [hm] at e
    exact plain_inj m vs1 vs2 r1 r2 (fun v hv => key v (h1 v hv)) (fun v hv => key v (h2 v hv)) (List.append_cancel_left e)
  | false =>
    simp only [ht, container, Bool.false_eq_true, if_false, List.append_assoc] at e
    have e := List.append_cancel_left (List.append_cancel_left e)
    refine elems_inj (P := Has t) ?_ vs1 vs2 0 r1 r2 h1 h2 c1 c2 e
    intro i v1 v2 r1 r2 p1 p2 c1 c2 e
    have := path_elem hd i
    exact hf _ v1 v2 r1 r2 this.1 (by omega) p1 p2 c1 c2 e

private theorem isFund_eq {t : Ty} (h : isFund t = true) : t = .fund := by cases t <;> first | rfl | cases h

private theorem has_leaf {t : Ty} {v : V} (ht : t = .fund ∨ t = .str ∨ t = .enum) (h : Has t v) : ∃ s, v = .leaf s := by
  rcases ht with rfl | rfl | rfl <;> cases v <;> first | exact ⟨_, rfl⟩ | exact h.elim

private theorem has_obj {ns : List (Option Str)} {ts : List Ty} {v : V} (h : Has (.obj ns ts) v) : ∃ vs, v = .obj vs ∧ HasL ts vs := by
  cases v <;> first | exact ⟨_, rfl, h⟩ | exact h.elim

private theorem has_seq {t : Ty} {v : V} (h : Has (.seq t) v) : ∃ vs, v = .seq vs ∧ ∀ v ∈ vs, Has t v := by
  cases v <;> first | exact ⟨_, rfl, h⟩ | exact h.elim

private theorem has_arr {n : Nat} {dims : List Nat} {t : Ty} {v : V} (h : Has (.arr n dims t) v) :
    ∃ vs, v = .seq vs ∧ vs.length = size (n :: dims) ∧ ∀ v ∈ vs, Has t v := by
  cases v <;> first | exact ⟨_, rfl, h⟩ | exact h.elim

private theorem has_map {t : Ty} {v : V} (h : Has (.map t) v) : ∃ vs, v = .map vs ∧ ∀ x ∈ vs, (93 ∉ x.1 ∧ 10 ∉ x.1) ∧ Has t x.2 := by
  cases v <;> first | exact ⟨_, rfl, h⟩ | exact h.elim

private theorem has_smap {t : Ty} {v : V} (h : Has (.smap t) v) : ∃ vs, v = .map vs ∧ ∀ x ∈ vs, 10 ∉ x.1 ∧ Has t x.2 := by
  cases v <;> first | exact ⟨_, rfl, h⟩ | exact h.elim

private def NotNull (v : V) : Prop := match v with | .leaf s => s ≠ b "null" | _ => True

private theorem has_ptr {t : Ty} {v : V} (h : Has (.ptr t) v) : v = .null ∨ ∃ w, v = .some w ∧ Has t w ∧ NotNull w := by
  cases v <;> first | exact .inl rfl | exact .inr ⟨_, rfl, h⟩ | exact h.elim

private theorem dump_closed (t : Ty) (d : Str) (v : V) (r : Str) (h : Path d) (hv : Has t v) (hr : Closed r) : Closed (dump t d v ++ r) := by
  match t with
  | .fund => obtain ⟨s, rfl⟩ := has_leaf (.inl rfl) hv; simp only [dump, basic, List.append_assoc]; exact closed_format h _
  | .str => obtain ⟨s, rfl⟩ := has_leaf (.inr (.inl rfl)) hv; simp only [dump, basic, List.append_assoc]; exact closed_format h _
  | .enum => obtain ⟨s, rfl⟩ := has_leaf (.inr (.inr rfl)) hv; simp only [dump, List.append_assoc]; exact closed_format h _
  | .obj ns ts => obtain ⟨s, rfl, _⟩ := has_obj hv; simp only [dump, List.append_assoc]; exact closed_format h _
  | .seq t =>
    obtain ⟨s, rfl, _⟩ := has_seq hv
    simp only [dump, container]
    split <;> simp only [List.append_assoc] <;> exact closed_format h _
  | .arr n dims t =>
    obtain ⟨s, rfl, _⟩ := has_arr hv
    simp only [dump, container]
    split
    · exact hr
    · split <;> simp only [List.append_assoc] <;> exact closed_format h _
  | .map t => obtain ⟨s, rfl, _⟩ := has_map hv; simp only [dump, List.append_assoc]; exact closed_format h _
  | .smap t => obtain ⟨s, rfl, _⟩ := has_smap hv; simp only [dump, List.append_assoc]; exact closed_format h _
  | .ptr t =>
    rcases has_ptr hv with rfl | ⟨w, rfl, hw, _⟩
    · simp only [dump, basic, List.append_assoc]; exact closed_format h _
    · exact dump_closed t d w r h hw hr

private theorem fields_closed : ∀ (ts : List Ty) (d : Str) (ns : List (Option Str)) (vs : List V) {r : Str} (_ : FOk ns ts) (_ : Path d)
    (_ : HasL ts vs) (_ : Closed r), Closed (fields ts d ns vs ++ r) := by
  intro ts d ns vs r ht hd hv hr
  match ts, ns, vs with
  | [], [], [] => exact hr
  | [], _ :: _, _ => simpa [fields] using hr
  | [], _, _ :: _ => simpa [fields] using hr
  | t :: ts, [], _ => exact ht.elim
  | t :: ts, _, [] => exact hv.elim
  | t :: ts, some n :: ns, v :: vs =>
    simp only [fields, List.append_assoc]
    have hp := path_member (d := d) ht.1
    rw [List.append_assoc] at hp
    exact dump_closed t _ v _ hp.1 hv.1 (fields_closed ts d ns vs ht.2.2 hd hv.2 hr)
  | t :: ts, none :: ns, v :: vs =>
    simp only [fields, List.append_assoc]
    exact dump_closed t _ v _ hd hv.1 (fields_closed ts d ns vs ht.2.2 hd hv.2 hr)

private theorem pair_inj {t : Ty} {d d' : Str}
    (hf : ∀ v1 v2 r1 r2, Has t v1 → Has t v2 → Closed r1 → Closed r2 → dump t d' v1 ++ r1 = dump t d' v2 ++ r2 → v1 = v2 ∧ r1 = r2)
    {x1 x2 : Str × V} {r1 r2 : Str} (p1 : (93 ∉ x1.1 ∧ 10 ∉ x1.1) ∧ Has t x1.2) (p2 : (93 ∉ x2.1 ∧ 10 ∉ x2.1) ∧ Has t x2.2)
    (e : pair (isFund t) (dump t) x1.1 d' x1.2 ++ (setw (ndots d + 2) (b "}") ++ r1) =
      pair (isFund t) (dump t) x2.1 d' x2.2 ++ (setw (ndots d + 2) (b "}") ++ r2)) : x1 = x2 ∧ r1 = r2 := by
  obtain ⟨k1, v1⟩ := x1
  obtain ⟨k2, v2⟩ := x2
  obtain ⟨⟨p1, _⟩, q1⟩ := p1
  obtain ⟨⟨p2, _⟩, q2⟩ := p2
  have key : ∀ {k1 k2 x1 x2 : Str}, 93 ∉ k1 → 93 ∉ k2 → b "[" ++ (k1 ++ (b "]=" ++ x1)) = b "[" ++ (k2 ++ (b "]=" ++ x2)) → k1 = k2 ∧ x1 = x2 := by
    intro k1 k2 x1 x2 p1 p2 e
    have := split (p := (· != 93)) (fun c hc => by simp only [bne_iff_ne]; rintro rfl; exact p1 hc)
      (fun c hc => by simp only [bne_iff_ne]; rintro rfl; exact p2 hc) (fun c hc => by cases hc; rfl) (fun c hc => by cases hc; rfl)
      (List.append_cancel_left e)
    exact ⟨this.1, List.append_cancel_left this.2⟩
  cases hf' : isFund t with
  | true =>
    cases isFund_eq hf'
    obtain ⟨s1, rfl⟩ := has_leaf (.inl rfl) q1
    obtain ⟨s2, rfl⟩ := has_leaf (.inl rfl) q2
    simp only [isFund, pair, List.append_assoc] at e
    obtain ⟨rfl, e'⟩ := key p1 p2 e
    rw [setw_brace _ _ (by decide)] at e'
    have := split (p := (· != 32)) (fun c hc => by simpa using (q1.2 c hc).1) (fun c hc => by simpa using (q2.2 c hc).1)
      (fun c hc => by cases hc; rfl) (fun c hc => by cases hc; rfl) e'
    obtain ⟨rfl, e2⟩ := this
    exact ⟨rfl, List.append_cancel_left e2⟩
  | false =>
    simp only [hf', pair, List.append_assoc] at e
    obtain ⟨rfl, e'⟩ := key p1 p2 e
    obtain ⟨rfl, e2⟩ := hf v1 v2 _ _ q1 q2 (closed_end _ _) (closed_end _ _) e'
    exact ⟨rfl, List.append_cancel_left e2⟩

/-- No object is dumped like a null pointer. -/
private theorem not_null {t : Ty} {d : Str} (ht : TOk (.ptr t)) (hn : 1 ≤ ndots d) {v : V} {x y : Str} (h : Has t v)
    (hv : NotNull v) : dump t d v ++ x ≠ basic d (b "null") ++ y := by
  intro e
  have hs : ∀ {z : Str}, (∀ c, z.head? = some c → c ≠ 110) → z ≠ [] → format d ++ z ≠ basic d (b "null") ++ y := by
    intro z hz hz' e
    simp only [basic, List.append_assoc] at e
    have := List.append_cancel_left e
    exact hz 110 (by rw [this]; rfl) rfl
  cases t with
  | fund =>
    obtain ⟨s, rfl⟩ := has_leaf (.inl rfl) h
    exact hv (basic_inj (word_line h) (by decide) e).1
  | str => exact ht.2
  | ptr _ => exact ht.2
  | arr _ _ _ => exact ht.2
  | enum =>
    obtain ⟨s, rfl⟩ := has_leaf (.inr (.inr rfl)) h
    simp only [dump] at e
    rw [List.append_assoc, List.append_assoc, List.append_assoc, List.append_assoc] at e
    exact hs (fun c hc => by cases hc; decide) (by simp [show b "{\n" = [123, 10] by decide]) e
  | obj ns ts =>
    obtain ⟨vs, rfl, _⟩ := has_obj h
    simp only [dump] at e
    rw [List.append_assoc, List.append_assoc, List.append_assoc, List.append_assoc] at e
    exact hs (fun c hc => by cases hc; decide) (by simp [show b "{\n" = [123, 10] by decide]) e
  | map t =>
    obtain ⟨vs, rfl, _⟩ := has_map h
    simp only [dump] at e
    rw [List.append_assoc, List.append_assoc] at e
    exact hs (fun c hc => by cases hc; decide) (by simp [show b "\n" = [10] by decide]) e
  | smap t =>
    obtain ⟨vs, rfl, _⟩ := has_smap h
    simp only [dump] at e
    rw [List.append_assoc, List.append_assoc] at e
    exact hs (fun c hc => by cases hc; decide) (by simp [show b "\n" = [10] by decide]) e
  | seq t =>
    obtain ⟨vs, rfl, hvs⟩ := has_seq h
    simp only [dump, container] at e
    split at e
    · rename_i hf
      cases isFund_eq hf
      rw [List.append_assoc, List.append_assoc] at e
      refine hs ?_ ?_ e
      · intro c hc
        cases vs with
        | nil => cases hc; decide
        | cons v vs =>
          obtain ⟨s, rfl⟩ := has_leaf (.inl rfl) (hvs v (.head _))
          obtain ⟨m, hm⟩ : ∃ m, ndots d = m + 1 := ⟨ndots d - 1, by omega⟩
          rw [plain, hm] at hc
          cases hc; decide
      · simp [show b "\n" = [10] by decide]
    · rw [List.append_assoc, List.append_assoc] at e
      exact hs (fun c hc => by cases hc; decide) (by simp [show b "\n" = [10] by decide]) e

mutual
private theorem dump_inj (t : Ty) (d : Str) (v1 v2 : V) (r1 r2 : Str) (ht : TOk t) (hd : Path d) (hn : 1 ≤ ndots d ∨ (∃ ns ts, t = .obj ns ts))
    (h1 : Has t v1) (h2 : Has t v2) (c1 : Closed r1) (c2 : Closed r2) (e : dump t d v1 ++ r1 = dump t d v2 ++ r2) : v1 = v2 ∧ r1 = r2 := by
  have num : ∀ {t : Ty}, (1 ≤ ndots d ∨ (∃ ns ts, t = Ty.obj ns ts)) → (∀ ns ts, t ≠ .obj ns ts) → 1 ≤ ndots d := by
    intro t h ho
    rcases h with h | ⟨ns, ts, h⟩
    · exact h
    · exact absurd h (ho ns ts)
  match t with
  | .fund =>
    obtain ⟨s1, rfl⟩ := has_leaf (.inl rfl) h1
    obtain ⟨s2, rfl⟩ := has_leaf (.inl rfl) h2
    obtain ⟨rfl, rfl⟩ := basic_inj (word_line h1) (word_line h2) e
    exact ⟨rfl, rfl⟩
  | .str =>
    obtain ⟨s1, rfl⟩ := has_leaf (.inr (.inl rfl)) h1
    obtain ⟨s2, rfl⟩ := has_leaf (.inr (.inl rfl)) h2
    obtain ⟨rfl, rfl⟩ := basic_inj h1 h2 e
    exact ⟨rfl, rfl⟩
  | .enum =>
    obtain ⟨s1, rfl⟩ := has_leaf (.inr (.inr rfl)) h1
    obtain ⟨s2, rfl⟩ := has_leaf (.inr (.inr rfl)) h2
    simp only [dump] at e
    rw [List.append_assoc, List.append_assoc, List.append_assoc, List.append_assoc, List.append_assoc, List.append_assoc, List.append_assoc, List.append_assoc] at e
    obtain ⟨rfl, e'⟩ := basic_inj h1 h2 (List.append_cancel_left (List.append_cancel_left e))
    exact ⟨rfl, List.append_cancel_left (List.append_cancel_left e')⟩
  | .obj ns ts =>
    obtain ⟨vs1, rfl, h1⟩ := has_obj h1
    obtain ⟨vs2, rfl, h2⟩ := has_obj h2
    simp only [dump, List.append_assoc] at e
    have e := List.append_cancel_left (List.append_cancel_left e)
    obtain ⟨rfl, e'⟩ := fields_inj ts d ns _ _ _ _ ht hd h1 h2 (closed_end _ _) (closed_end _ _) e
    exact ⟨rfl, List.append_cancel_left (List.append_cancel_left e')⟩
  | .seq t =>
    have hn := num hn (by simp)
    obtain ⟨vs1, rfl, h1⟩ := has_seq h1
    obtain ⟨vs2, rfl, h2⟩ := has_seq h2
    obtain ⟨rfl, rfl⟩ := container_inj hd hn (fun d v1 v2 r1 r2 hd hn => dump_inj t d v1 v2 r1 r2 ht hd (.inl hn)) h1 h2 c1 c2 e
    exact ⟨rfl, rfl⟩
  | .arr n dims t =>
    have hn := num hn (by simp)
    obtain ⟨vs1, rfl, l1, h1⟩ := has_arr h1
    obtain ⟨vs2, rfl, l2, h2⟩ := has_arr h2
    simp only [dump, count_eq] at e
    split at e
    · rename_i h0
      have g1 := List.length_eq_zero_iff.1 (l1.trans h0)
      have g2 := List.length_eq_zero_iff.1 (l2.trans h0)
      subst g1 g2
      exact ⟨rfl, e⟩
    · have t1 : vs1.take (size (n :: dims)) = vs1 := by rw [← l1, List.take_length]
      have t2 : vs2.take (size (n :: dims)) = vs2 := by rw [← l2, List.take_length]
      rw [t1, t2] at e
      obtain ⟨rfl, rfl⟩ := container_inj hd hn (fun d v1 v2 r1 r2 hd hn => dump_inj t d v1 v2 r1 r2 ht hd (.inl hn)) h1 h2 c1 c2 e
      exact ⟨rfl, rfl⟩
  | .map t =>
    have hn := num hn (by simp)
    obtain ⟨vs1, rfl, h1⟩ := has_map h1
    obtain ⟨vs2, rfl, h2⟩ := has_map h2
    simp only [dump, List.append_assoc] at e
    have e := List.append_cancel_left (List.append_cancel_left e)
    have := pairs_inj (P := fun x => (93 ∉ x.1 ∧ 10 ∉ x.1) ∧ Has t x.2) ?_ _ _ 0 r1 r2 h1 h2 c1 c2 e
    · obtain ⟨rfl, rfl⟩ := this
      exact ⟨rfl, rfl⟩
    · intro i x1 x2 r1 r2 p1 p2 e
      have hp := path_elem hd i
      exact pair_inj (fun v1 v2 r1 r2 => dump_inj t _ v1 v2 r1 r2 ht hp.1 (.inl (by omega))) p1 p2 e
  | .smap t =>
    have hn := num hn (by simp)
    obtain ⟨vs1, rfl, h1⟩ := has_smap h1
    obtain ⟨vs2, rfl, h2⟩ := has_smap h2
    simp only [dump, List.append_assoc] at e
    have e := List.append_cancel_left (List.append_cancel_left e)
    have := pairs_inj (P := fun x => 10 ∉ x.1 ∧ Has t x.2) ?_ _ _ 0 r1 r2 h1 h2 c1 c2 e
    · obtain ⟨rfl, rfl⟩ := this
      exact ⟨rfl, rfl⟩
    · rintro i ⟨k1, v1⟩ ⟨k2, v2⟩ r1 r2 ⟨p1, q1⟩ ⟨p2, q2⟩ e
      simp only [spair] at e
      rw [List.append_assoc (basic _ k1), List.append_assoc (basic _ k2)] at e
      obtain ⟨rfl, e'⟩ := basic_inj p1 p2 e
      have hp := path_elem hd i
      obtain ⟨rfl, e2⟩ := dump_inj t _ v1 v2 _ _ ht hp.1 (.inl (by omega)) q1 q2 (closed_end _ _) (closed_end _ _) e'
      exact ⟨rfl, List.append_cancel_left e2⟩
  | .ptr t =>
    have hn := num hn (by simp)
    rcases has_ptr h1 with rfl | ⟨w1, rfl, h1, g1⟩ <;> rcases has_ptr h2 with rfl | ⟨w2, rfl, h2, g2⟩
    · exact ⟨rfl, List.append_cancel_left e⟩
    · exact absurd e.symm (not_null ht hn h2 g2)
    · exact absurd e (not_null ht hn h1 g1)
    · obtain ⟨rfl, rfl⟩ := dump_inj t d _ _ r1 r2 ht.1 hd (.inl hn) h1 h2 c1 c2 e
      exact ⟨rfl, rfl⟩
private theorem fields_inj (ts : List Ty) (d : Str) (ns : List (Option Str)) (vs1 vs2 : List V) (r1 r2 : Str) (ht : FOk ns ts) (hd : Path d)
    (h1 : HasL ts vs1) (h2 : HasL ts vs2) (c1 : Closed r1) (c2 : Closed r2) (e : fields ts d ns vs1 ++ r1 = fields ts d ns vs2 ++ r2) :
    vs1 = vs2 ∧ r1 = r2 := by
  match ts, vs1, vs2 with
  | [], [], [] => 
    cases ns with
    | nil => exact ⟨rfl, by simpa [fields] using e⟩
    | cons n ns => cases n <;> exact ht.elim
  | [], _ :: _, _ => exact h1.elim
  | [], _, _ :: _ => exact h2.elim
  | _ :: _, [], _ => exact h1.elim
  | _ :: _, _, [] => exact h2.elim
  | t :: ts, v1 :: vs1, v2 :: vs2 =>
    match ns with
    | [] => exact ht.elim
    | some n :: ns =>
      simp only [fields, List.append_assoc] at e
      have hp := path_member (d := d) ht.1
      rw [List.append_assoc] at hp
      obtain ⟨rfl, e'⟩ := dump_inj t _ v1 v2 _ _ ht.2.1 hp.1 (.inl (by omega)) h1.1 h2.1 (fields_closed ts d ns vs1 ht.2.2 hd h1.2 c1)
        (fields_closed ts d ns vs2 ht.2.2 hd h2.2 c2) e
      obtain ⟨rfl, rfl⟩ := fields_inj ts d ns vs1 vs2 r1 r2 ht.2.2 hd h1.2 h2.2 c1 c2 e'
      exact ⟨rfl, rfl⟩
    | none :: ns =>
      simp only [fields, List.append_assoc] at e
      have ho : ∃ ns ts, t = .obj ns ts := by
        have := ht.2.1
        cases t <;> first | exact ⟨_, _, rfl⟩ | exact this.elim
      obtain ⟨rfl, e'⟩ := dump_inj t _ v1 v2 _ _ ht.1 hd (.inr ho) h1.1 h2.1 (fields_closed ts d ns vs1 ht.2.2 hd h1.2 c1)
        (fields_closed ts d ns vs2 ht.2.2 hd h2.2 c2) e
      obtain ⟨rfl, rfl⟩ := fields_inj ts d ns vs1 vs2 r1 r2 ht.2.2 hd h1.2 h2.2 c1 c2 e'
      exact ⟨rfl, rfl⟩
end

/-! ### Lines -/

private theorem linesOf_line {a r : Str} (h : 10 ∉ a) : linesOf (a ++ (b "\n" ++ r)) = a :: linesOf r := by
  induction a with
  | nil => simp [linesOf, show b "\n" = [10] by decide]
  | cons c a ih =>
    have h1 : c ≠ 10 := fun q => h (by simp [q])
    have h2 : 10 ∉ a := fun q => h (List.mem_cons_of_mem _ q)
    rw [List.cons_append, linesOf, if_neg h1, ih h2]

private theorem skip_line {a r : Str} {L : List Str} (h : 10 ∉ a) (hs : Shows L (linesOf r)) : Shows L (linesOf (a ++ (b "\n" ++ r))) := by
  rw [linesOf_line h]; exact .skip hs

private theorem take_line {p a r : Str} {L : List Str} (h : 10 ∉ a) (hp : p <+: a) (hs : Shows L (linesOf r)) :
    Shows (p :: L) (linesOf (a ++ (b "\n" ++ r))) := by
  rw [linesOf_line h]; exact .take hp hs

private theorem spaces_line (n : Nat) : 10 ∉ List.replicate n (32 : UInt8) := by
  intro h
  have := List.eq_of_mem_replicate h
  revert this; decide

private theorem format_line {d : Str} (h : Path d) : 10 ∉ format d := by
  rw [format_eq]
  simp only [List.mem_append, not_or]
  exact ⟨⟨spaces_line _, fun q => (h.1 10 q).2.1 rfl⟩, by decide⟩

private theorem setw_line (n : Nat) {c : String} (hc : (b c).length = 1) (h : 10 ∉ b c) : 10 ∉ setw (n + 2) (b c) := by
  rw [setw_brace _ _ hc]
  simp only [List.mem_append, not_or]
  exact ⟨spaces_line _, h⟩

private theorem basic_shows {d s r : Str} {L : List Str} (hd : Path d) (hs : 10 ∉ s) (h : Shows L (linesOf r)) :
    Shows (entry (ndots d) (base d) s :: L) (linesOf (basic d s ++ r)) := by
  have e : basic d s ++ r = entry (ndots d) (base d) s ++ (b "\n" ++ r) := by simp [basic, entry, format_eq]
  rw [e]
  refine take_line ?_ (List.prefix_refl _) h
  have : entry (ndots d) (base d) s = format d ++ s := by simp [entry, format_eq]
  rw [this]
  simp only [List.mem_append, not_or]
  exact ⟨format_line hd, hs⟩

private theorem plain_eq (n : Nat) : ∀ vs : List V, (∀ v ∈ vs, Has .fund v) → plain n vs = (textsL vs).flatMap (fun s => List.replicate n 32 ++ s) ∧ 10 ∉ plain n vs := by
  intro vs
  induction vs with
  | nil => intro _; exact ⟨rfl, by simp [plain]⟩
  | cons v vs ih =>
    intro h
    obtain ⟨s, rfl⟩ := has_leaf (.inl rfl) (h v (.head _))
    have hs : Word s := h _ (.head _)
    obtain ⟨i1, i2⟩ := ih (fun v hv => h v (.tail _ hv))
    constructor
    · rw [plain, i1]
      simp [textsL, texts, setw]
    · rw [plain]
      simp only [List.mem_append, not_or, setw]
      exact ⟨⟨⟨spaces_line _, by simp⟩, word_line hs⟩, i2⟩

private theorem base_elem {d : Str} (i : Nat) : base (d ++ b "[" ++ b (toString i) ++ b "]") = index (base d) i := by
  rw [List.append_assoc, List.append_assoc, base_app]
  · simp [index]
  · intro h
    simp only [List.mem_append] at h
    rcases h with h | h | h
    · revert h; decide
    · have := digits i 46 h; revert this; decide
    · revert h; decide

private theorem elems_shows {f : Str → V → Str} {w : Str → V → List Str} {d r : Str} {L : List Str} (P : V → Prop)
    (hf : ∀ (i : Nat) v r L, P v → Shows L (linesOf r) → Shows (w (index (base d) i) v ++ L) (linesOf (f (d ++ b "[" ++ b (toString i) ++ b "]") v ++ r)))
    (h : Shows L (linesOf r)) : ∀ (vs : List V) (i : Nat), (∀ v ∈ vs, P v) →
      Shows (((vs.zipIdx i).map fun v => w (index (base d) v.2) v.1).flatten ++ L) (linesOf (elems f d i vs ++ r)) := by
  intro vs
  induction vs with
  | nil => intro i _; exact h
  | cons v vs ih =>
    intro i hv
    have h2 := ih (i + 1) (fun v hv' => hv v (.tail _ hv'))
    simp only [elems, List.append_assoc, List.zipIdx_cons, List.map_cons, List.flatten_cons]
    refine skip_line (setw_line _ (by decide) (by decide)) ?_
    have := hf i v (setw (ndots d + 2) (b "}") ++ (b "\n" ++ (elems f d (i + 1) vs ++ r))) _ (hv v (.head _))
      (skip_line (setw_line _ (by decide) (by decide)) h2)
    simpa only [List.append_assoc] using this

private theorem pairs_shows {f : Str → Str → V → Str} {w : Str → Str × V → List Str} {d r : Str} {L : List Str} (P : Str × V → Prop)
    (hf : ∀ (i : Nat) (x : Str × V) r L, P x → Shows L (linesOf r) → Shows (w (index (base d) i) x ++ L)
      (linesOf (f x.1 (d ++ b "[" ++ b (toString i) ++ b "]") x.2 ++ (setw (ndots d + 2) (b "}") ++ (b "\n" ++ r)))))
    (h : Shows L (linesOf r)) : ∀ (vs : List (Str × V)) (i : Nat), (∀ v ∈ vs, P v) →
      Shows (((vs.zipIdx i).map fun v => w (index (base d) v.2) v.1).flatten ++ L) (linesOf (pairs f d i vs ++ r)) := by
  intro vs
  induction vs with
  | nil => intro i _; exact h
  | cons v vs ih =>
    intro i hv
    have h2 := ih (i + 1) (fun v hv' => hv v (.tail _ hv'))
    obtain ⟨k, v⟩ := v
    simp only [pairs, List.append_assoc, List.zipIdx_cons, List.map_cons, List.flatten_cons]
    refine skip_line (setw_line _ (by decide) (by decide)) ?_
    have := hf i (k, v) _ _ (hv _ (.head _)) h2
    simpa only [List.append_assoc] using this

private theorem want_seq {t : Ty} (h : isFund t = false) (n : Nat) (x : Str) (vs : List V) :
    want (.seq t) n x (.seq vs) = (vs.zipIdx.map fun v => want t n (index x v.2) v.1).flatten := by
  cases t <;> first | rfl | cases h

private theorem want_arr {t : Ty} (h : isFund t = false) (m : Nat) (dims : List Nat) (n : Nat) (x : Str) (vs : List V) :
    want (.arr m dims t) n x (.seq vs) = (vs.zipIdx.map fun v => want t n (index x v.2) v.1).flatten := by
  cases t <;> first | rfl | cases h

private theorem container_shows {t : Ty} {d r : Str} {L : List Str} (hd : Path d)
    (hf : ∀ d v r L, Path d → Has t v → Shows L (linesOf r) → Shows (want t (ndots d) (base d) v ++ L) (linesOf (dump t d v ++ r)))
    (h : Shows L (linesOf r)) (vs : List V) (hv : ∀ v ∈ vs, Has t v) :
    Shows (want (.seq t) (ndots d) (base d) (.seq vs) ++ L) (linesOf (container (isFund t) (dump t) d vs ++ r)) := by
  cases ht : isFund t with
  | true =>
    cases isFund_eq ht
    obtain ⟨p1, p2⟩ := plain_eq (ndots d) vs hv
    simp only [container, if_true, want]
    rw [← p1]
    exact basic_shows hd p2 h
  | false =>
    simp only [container, Bool.false_eq_true, if_false, List.append_assoc]
    refine skip_line (format_line hd) ?_
    rw [want_seq ht]
    refine elems_shows (w := fun x v => want t (ndots d) x v) (Has t) ?_ h vs 0 hv
    intro i v r L hv hr
    have hp := path_elem hd i
    have := hf _ v r L hp.1 hv hr
    rw [hp.2, base_elem] at this
    exact this

mutual
private theorem dump_shows (t : Ty) (d : Str) (v : V) (r : Str) (L : List Str) (ht : TOk t) (hs : Simple t) (hd : Path d) (hv : Has t v)
    (h : Shows L (linesOf r)) : Shows (want t (ndots d) (base d) v ++ L) (linesOf (dump t d v ++ r)) := by
  match t with
  | .fund => obtain ⟨s, rfl⟩ := has_leaf (.inl rfl) hv; exact basic_shows hd (word_line hv) h
  | .str => obtain ⟨s, rfl⟩ := has_leaf (.inr (.inl rfl)) hv; exact basic_shows hd hv h
  | .enum =>
    obtain ⟨s, rfl⟩ := has_leaf (.inr (.inr rfl)) hv
    simp only [dump, want, List.append_assoc]
    rw [show b "{\n" = b "{" ++ b "\n" by decide, List.append_assoc, ← List.append_assoc (format d)]
    refine skip_line ?_ (basic_shows hd hv (skip_line (setw_line _ (by decide) (by decide)) h))
    simp only [List.mem_append, not_or]
    exact ⟨format_line hd, by decide⟩
  | .obj ns ts =>
    obtain ⟨vs, rfl, hvs⟩ := has_obj hv
    simp only [dump, want, List.append_assoc]
    rw [show b "{\n" = b "{" ++ b "\n" by decide, List.append_assoc, ← List.append_assoc (format d)]
    refine skip_line ?_ (fields_shows ts d ns vs _ L ht hs hd hvs (skip_line (setw_line _ (by decide) (by decide)) h))
    simp only [List.mem_append, not_or]
    exact ⟨format_line hd, by decide⟩
  | .seq t =>
    obtain ⟨vs, rfl, hvs⟩ := has_seq hv
    exact container_shows hd (fun d v r L hd => dump_shows t d v r L ht hs hd) h vs hvs
  | .arr n dims t =>
    obtain ⟨vs, rfl, hl, hvs⟩ := has_arr hv
    have h0 : ¬ count n dims = 0 := by rw [count_eq]; exact hs.2
    have t1 : vs.take (count n dims) = vs := by rw [count_eq, ← hl, List.take_length]
    simp only [dump, h0, if_false, t1]
    have := container_shows hd (fun d v r L hd => dump_shows t d v r L ht hs.1 hd) h vs hvs
    cases hf : isFund t with
    | true => cases isFund_eq hf; exact this
    | false => rw [want_arr hf]; rw [want_seq hf, hf] at this; exact this
  | .map t =>
    obtain ⟨vs, rfl, hvs⟩ := has_map hv
    have hf : t = .fund := by cases t <;> first | rfl | exact hs.elim
    subst hf
    simp only [dump, want, List.append_assoc]
    refine skip_line (format_line hd) ?_
    have := pairs_shows (f := pair (isFund .fund) (dump .fund)) (d := d) (w := fun _ x => [b "[" ++ x.1 ++ b "]=" ++ (texts x.2).flatten])
      (fun x => 10 ∉ x.1 ∧ Has .fund x.2) ?_ h vs 0 ?_
    · have e : ((vs.zipIdx 0).map fun v => (fun (_ : Str) (x : Str × V) => [b "[" ++ x.1 ++ b "]=" ++ (texts x.2).flatten]) (index (base d) v.2) v.1).flatten =
          vs.map fun x => b "[" ++ x.1 ++ b "]=" ++ (texts x.2).flatten := by
        generalize 0 = i
        clear this hvs hv
        induction vs generalizing i with
        | nil => rfl
        | cons x vs ih => simp only [List.zipIdx_cons, List.map_cons, List.flatten_cons, ih (i + 1)]; rfl
      rw [e] at this
      simpa only [List.append_assoc] using this
    · rintro i ⟨k, v⟩ r L ⟨hk, hv⟩ hr
      obtain ⟨s, rfl⟩ := has_leaf (.inl rfl) hv
      simp only [isFund, pair, texts, List.flatten_cons, List.flatten_nil, List.append_nil]
      rw [← List.append_assoc _ (setw _ _)]
      refine take_line ?_ (List.prefix_append _ _) hr
      simp only [List.mem_append, not_or]
      exact ⟨⟨⟨⟨by decide, hk⟩, by decide⟩, word_line hv⟩, setw_line _ (by decide) (by decide)⟩
    · exact fun x hx => ⟨(hvs x hx).1.2, (hvs x hx).2⟩
  | .smap t =>
    obtain ⟨vs, rfl, hvs⟩ := has_smap hv
    simp only [dump, want, List.append_assoc]
    refine skip_line (format_line hd) ?_
    refine pairs_shows (f := spair (dump t)) (d := d) (w := fun y x => entry (ndots d + 1) (y ++ b "]=") x.1 :: want t (ndots d) y x.2)
      (fun x => 10 ∉ x.1 ∧ Has t x.2) ?_ h vs 0 hvs
    rintro i ⟨k, v⟩ r L ⟨hk, hv⟩ hr
    have hp := path_elem hd i
    have h1 := dump_shows t _ v _ _ ht hs hp.1 hv (skip_line (setw_line (ndots d) (c := "}") (by decide) (by decide)) hr)
    rw [hp.2, base_elem] at h1
    have hk' := path_key hp.1
    have := basic_shows hk'.1 hk h1
    rw [hk'.2.1, hk'.2.2, hp.2, base_elem] at this
    simp only [spair, List.cons_append]
    rw [List.append_assoc (basic _ k)]
    exact this
  | .ptr t =>
    rcases has_ptr hv with rfl | ⟨w, rfl, hw, _⟩
    · exact basic_shows hd (by decide) h
    · exact dump_shows t d w r L ht.1 hs hd hw h
private theorem fields_shows (ts : List Ty) (d : Str) (ns : List (Option Str)) (vs : List V) (r : Str) (L : List Str) (ht : FOk ns ts) (hs : SimpleL ts)
    (hd : Path d) (hv : HasL ts vs) (h : Shows L (linesOf r)) :
    Shows (wantL ts (ndots d) (base d) ns vs ++ L) (linesOf (fields ts d ns vs ++ r)) := by
  match ts, ns, vs with
  | [], _, _ => simpa [wantL, fields] using h
  | t :: ts, [], _ => exact ht.elim
  | t :: ts, _, [] => exact hv.elim
  | t :: ts, some n :: ns, v :: vs =>
    simp only [fields, wantL, List.append_assoc]
    have hp := path_member (d := d) ht.1
    have hb : base (d ++ b "." ++ n) = n := by rw [base_app (fun q => (ht.1.1 46 q).1 rfl), base_dot]; rfl
    have := dump_shows t _ v _ _ ht.2.1 hs.1 hp.1 hv.1 (fields_shows ts d ns vs r L ht.2.2 hs.2 hd hv.2 h)
    rw [hp.2, hb, List.append_assoc d] at this
    exact this
  | t :: ts, none :: ns, v :: vs =>
    simp only [fields, wantL, List.append_assoc]
    exact dump_shows t _ v _ _ ht.1 hs.1 hd hv.1 (fields_shows ts d ns vs r L ht.2.2 hs.2 hd hv.2 h)
end

/-! ### Braces -/

private theorem nested_app {x y : Str} (h : Nested x) (hy : Nested y) : Nested (x ++ y) := by
  induction h with
  | nil => exact hy
  | char h1 h2 _ ih => exact .char h1 h2 ih
  | nest h1 _ _ ih2 =>
    rw [List.cons_append, List.append_assoc]
    exact .nest h1 ih2

private theorem nested_plain {x : Str} (h : 123 ∉ x ∧ 125 ∉ x) : Nested x := by
  induction x with
  | nil => exact .nil
  | cons c x ih =>
    simp only [List.mem_cons, not_or] at h
    exact .char (fun q => h.1.1 q.symm) (fun q => h.2.1 q.symm) (ih ⟨h.1.2, h.2.2⟩)

private theorem spaces_nested (n : Nat) : Nested (List.replicate n (32 : UInt8)) := by
  refine nested_plain ⟨?_, ?_⟩ <;> intro h <;> have := List.eq_of_mem_replicate h <;> revert this <;> decide

private theorem format_nested {d : Str} (h : Path d) : Nested (format d) := by
  rw [format_eq]
  refine nested_app (nested_app (spaces_nested _) (nested_plain ⟨fun q => (h.1 _ q).2.2.1 rfl, fun q => (h.1 _ q).2.2.2 rfl⟩)) (nested_plain (by decide))

private def Clean (s : Str) : Prop := 123 ∉ s ∧ 125 ∉ s

private theorem basic_nested {d s : Str} (h : Path d) (hs : Clean s) : Nested (basic d s) :=
  nested_app (nested_app (format_nested h) (nested_plain hs)) (nested_plain (by decide))

/-- A brace, something and the brace that closes it. -/
private theorem block_nested {x : Str} (n : Nat) (h : Nested x) : Nested (b "{\n" ++ (x ++ (setw (n + 2) (b "}") ++ b "\n"))) := by
  rw [setw_brace _ _ (by decide)]
  have e : b "{\n" ++ (x ++ (List.replicate (n + 1) 32 ++ b "}" ++ b "\n")) = 123 :: ((10 :: x ++ List.replicate (n + 1) 32) ++ 125 :: [10]) := by
    simp [show b "{\n" = [123, 10] by decide, show b "}" = [125] by decide, show b "\n" = [10] by decide]
  rw [e]
  exact .nest (nested_app (.char (by decide) (by decide) h) (spaces_nested _)) (nested_plain (by decide))

private theorem elem_nested {x : Str} (m n : Nat) (h : Nested x) :
    Nested (setw (m + 2) (b "{") ++ b "\n" ++ x ++ setw (n + 2) (b "}") ++ b "\n") := by
  have := nested_app (spaces_nested (m + 1)) (block_nested n h)
  rw [show b "{\n" = b "{" ++ b "\n" by decide] at this
  rw [setw_brace m _ (by decide)]
  simpa only [List.append_assoc] using this

private theorem plain_nested (n : Nat) : ∀ vs : List V, (∀ s ∈ textsL vs, Clean s) → Nested (plain n vs) := by
  intro vs
  induction vs with
  | nil => intro _; exact .nil
  | cons v vs ih =>
    intro h
    simp only [textsL, List.mem_append] at h
    have := ih (fun s hs => h s (.inr hs))
    cases v <;> try exact .nil
    rename_i s
    rw [plain]
    refine nested_app (nested_app ?_ (nested_plain (h s (.inl (by simp [texts]))))) this
    rw [setw]
    exact nested_app (spaces_nested _) .nil

private theorem elems_nested {f : Str → V → Str} {d : Str} (P : V → Prop) (hf : ∀ (i : Nat) v, P v → (∀ s ∈ texts v, Clean s) → Nested (f (d ++ b "[" ++ b (toString i) ++ b "]") v)) :
    ∀ (vs : List V) (i : Nat), (∀ v ∈ vs, P v) → (∀ s ∈ textsL vs, Clean s) → Nested (elems f d i vs) := by
  intro vs
  induction vs with
  | nil => intro i _ _; exact .nil
  | cons v vs ih =>
    intro i hp h
    simp only [textsL, List.mem_append] at h
    rw [elems]
    exact nested_app (elem_nested _ _ (hf i v (hp _ (.head _)) (fun s hs => h s (.inl hs)))) (ih (i + 1) (fun v hv => hp v (.tail _ hv)) (fun s hs => h s (.inr hs)))

private theorem pairs_nested {f : Str → Str → V → Str} {d : Str}
    (P : V → Prop) (hf : ∀ (i : Nat) k v, P v → Clean k → (∀ s ∈ texts v, Clean s) → Nested (f k (d ++ b "[" ++ b (toString i) ++ b "]") v)) :
    ∀ (vs : List (Str × V)) (i : Nat), (∀ v ∈ vs, P v.2) → (∀ s ∈ textsM vs, Clean s) → Nested (pairs f d i vs) := by
  intro vs
  induction vs with
  | nil => intro i _ _; exact .nil
  | cons x vs ih =>
    intro i hp h
    obtain ⟨k, v⟩ := x
    simp only [textsM, List.mem_cons, List.mem_append] at h
    rw [pairs]
    exact nested_app (elem_nested _ _ (hf i k v (hp _ (.head _)) (h k (.inl rfl)) (fun s hs => h s (.inr (.inl hs))))) (ih (i + 1) (fun v hv => hp v (.tail _ hv)) (fun s hs => h s (.inr (.inr hs))))

private theorem container_nested {t : Ty} {d : Str} (hd : Path d) (hf : ∀ d v, Path d → Has t v → (∀ s ∈ texts v, Clean s) → Nested (dump t d v))
    (vs : List V) (hp : ∀ v ∈ vs, Has t v) (hv : ∀ s ∈ textsL vs, Clean s) : Nested (container (isFund t) (dump t) d vs) := by
  rw [container]
  split
  · exact nested_app (nested_app (format_nested hd) (plain_nested _ vs hv)) (nested_plain (by decide))
  · exact nested_app (nested_app (format_nested hd) (nested_plain (by decide))) (elems_nested (Has t) (fun i v => hf _ v (path_elem hd i).1) vs 0 hp hv)

private theorem textsL_take {s : Str} : ∀ (vs : List V) (n : Nat), s ∈ textsL (vs.take n) → s ∈ textsL vs := by
  intro vs
  induction vs with
  | nil => intro n h; simpa using h
  | cons v vs ih =>
    intro n h
    cases n with
    | zero => simp [textsL] at h
    | succ n =>
      simp only [List.take_succ_cons, textsL, List.mem_append] at h ⊢
      exact h.imp id (ih n)

mutual
private theorem dump_nested (t : Ty) (d : Str) (v : V) (ht : TOk t) (hd : Path d) (hv : Has t v) (h : ∀ s ∈ texts v, Clean s) : Nested (dump t d v) := by
  match t with
  | .fund =>
    obtain ⟨s, rfl⟩ := has_leaf (.inl rfl) hv
    exact basic_nested hd (h s (by simp [texts]))
  | .str =>
    obtain ⟨s, rfl⟩ := has_leaf (.inr (.inl rfl)) hv
    exact basic_nested hd (h s (by simp [texts]))
  | .enum =>
    obtain ⟨s, rfl⟩ := has_leaf (.inr (.inr rfl)) hv
    simp only [dump, List.append_assoc]
    exact nested_app (format_nested hd) (block_nested _ (basic_nested hd (h s (by simp [texts]))))
  | .obj ns ts =>
    obtain ⟨vs, rfl, hvs⟩ := has_obj hv
    simp only [dump, List.append_assoc]
    exact nested_app (format_nested hd) (block_nested _ (fields_nested ts d ns vs ht hd hvs h))
  | .seq t =>
    obtain ⟨vs, rfl, hvs⟩ := has_seq hv
    exact container_nested hd (fun d v => dump_nested t d v ht) vs hvs h
  | .arr n dims t =>
    obtain ⟨vs, rfl, _, hvs⟩ := has_arr hv
    simp only [dump]
    split
    · exact .nil
    · exact container_nested hd (fun d v => dump_nested t d v ht) _ (fun v hv => hvs v (List.mem_of_mem_take hv)) (fun s hs => h s (textsL_take _ _ hs))
  | .map t =>
    obtain ⟨kvs, rfl, hvs⟩ := has_map hv
    simp only [dump]
    refine nested_app (nested_app (format_nested hd) (nested_plain (by decide))) (pairs_nested (Has t) ?_ kvs 0 (fun x hx => (hvs x hx).2) h)
    intro i k v hw hk hv
    have h1 := dump_nested t _ v ht (path_elem hd i).1 hw hv
    have hk' : Nested (b "[" ++ k ++ b "]=") := nested_app (nested_app (nested_plain (by decide)) (nested_plain hk)) (nested_plain (by decide))
    rw [pair.eq_def]
    split
    · exact nested_app hk' (nested_plain (hv _ (by simp [texts])))
    · exact nested_app hk' h1
  | .smap t =>
    obtain ⟨kvs, rfl, hvs⟩ := has_smap hv
    simp only [dump]
    refine nested_app (nested_app (format_nested hd) (nested_plain (by decide))) (pairs_nested (Has t) ?_ kvs 0 (fun x hx => (hvs x hx).2) h)
    intro i k v hw hk hv
    exact nested_app (basic_nested (path_key (path_elem hd i).1).1 hk) (dump_nested t _ v ht (path_elem hd i).1 hw hv)
  | .ptr t =>
    rcases has_ptr hv with rfl | ⟨w, rfl, hw, _⟩
    · exact basic_nested hd (by unfold Clean; decide)
    · exact dump_nested t d w ht.1 hd hw h
private theorem fields_nested (ts : List Ty) (d : Str) (ns : List (Option Str)) (vs : List V) (ht : FOk ns ts) (hd : Path d) (hv : HasL ts vs)
    (h : ∀ s ∈ textsL vs, Clean s) : Nested (fields ts d ns vs) := by
  match ts, ns, vs with
  | t :: ts, some n :: ns, v :: vs =>
    simp only [textsL, List.mem_append] at h
    rw [fields]
    exact nested_app (dump_nested t _ v ht.2.1 (path_member ht.1).1 hv.1 (fun s hs => h s (.inl hs))) (fields_nested ts d ns vs ht.2.2 hd hv.2 (fun s hs => h s (.inr hs)))
  | t :: ts, none :: ns, v :: vs =>
    simp only [textsL, List.mem_append] at h
    rw [fields]
    exact nested_app (dump_nested t _ v ht.1 hd hv.1 (fun s hs => h s (.inl hs))) (fields_nested ts d ns vs ht.2.2 hd hv.2 (fun s hs => h s (.inr hs)))
  | [], _, _ => exact .nil
  | t :: ts, [], _ => exact ht.elim
  | t :: ts, some _ :: ns, [] => exact .nil
  | t :: ts, none :: ns, [] => exact .nil
end

/-! ### C84 -/

namespace C84

/-- A class with a base, a string, containers, an enumeration, maps, a pointer and an array. -/
def demoTy : Ty := .obj
  [none, some (b "s"), some (b "v"), some (b "e"), some (b "m"), some (b "k"), some (b "p"), some (b "w"), some (b "a")]
  [.obj [some (b "n")] [.fund], .str, .seq .fund, .enum, .map .fund, .smap .fund, .ptr .fund, .seq (.obj [some (b "q")] [.fund]), .arr 2 [1] .fund]

def demo (n p : Str) : V := .obj [.obj [.leaf n], .leaf (b "two words"), .seq [.leaf (b "1"), .leaf (b "2")], .leaf (b "red"),
  .map [(b "1", .leaf (b "2"))], .map [(b "one", .leaf (b "1"))], .some (.leaf p), .seq [.obj [.leaf (b "5")], .obj [.leaf (b "6")]],
  .seq [.leaf (b "3"), .leaf (b "4")]]

end C84

private theorem demo_tok : TOk demoTy := by
  simp only [demoTy, TOk, FOk, Name, and_true, true_and]
  repeat' apply And.intro
  all_goals first | decide | exact ⟨_, rfl, by decide⟩

private theorem demo_simple : Simple demoTy := by
  simp [demoTy, Simple, SimpleL, size]

private theorem demo_has : Has demoTy (demo (b "7") (b "8")) := by
  simp [demo, demoTy, Has, HasL, Word, size]
  repeat' apply And.intro
  all_goals decide

/-- Objects of a class whose dumps agree are equal. -/
theorem C84_injective_partial (ns : List (Option Str)) (ts : List Ty) (d : Str) (v1 v2 : V) (ht : TOk (.obj ns ts)) (hd : Name d)
    (h1 : Has (.obj ns ts) v1) (h2 : Has (.obj ns ts) v2) (e : dump (.obj ns ts) d v1 = dump (.obj ns ts) d v2) : v1 = v2 :=
  (dump_inj (.obj ns ts) d v1 v2 [] [] ht (path_name hd) (.inr ⟨ns, ts, rfl⟩) h1 h2 (by simp [Closed]) (by simp [Closed]) (by rw [e])).1

example : TOk demoTy ∧ Name (b "x") ∧ Has demoTy (demo (b "7") (b "8")) ∧
    dump demoTy (b "x") (demo (b "7") (b "8")) ≠ dump demoTy (b "x") (demo (b "7") (b "9")) :=
  ⟨demo_tok, ⟨by decide, _, rfl, by decide⟩, demo_has, by decide +kernel⟩

/-- Every value in an object is shown on a line of its own after its name, in the order of the members. -/
theorem C84_shown_partial (t : Ty) (d : Str) (v : V) (ht : TOk t) (hs : Simple t) (hd : Name d) (hv : Has t v) :
    Shows (want t 0 d v) (linesOf (dump t d v)) := by
  have h46 : 46 ∉ d := fun h => (hd.1 _ h).1 rfl
  have := dump_shows t d v [] [] ht hs (path_name hd) hv .nil
  rw [base_none h46, show ndots d = 0 from List.count_eq_zero.2 h46] at this
  simpa using this

example : TOk demoTy ∧ Simple demoTy ∧ Has demoTy (demo (b "7") (b "8")) ∧ want demoTy 0 (b "x") (demo (b "7") (b "8")) =
    [" n:7", " s:two words", " v: 1 2", " e:red", "[1]=2", "  k[0]]=:one", " k[0]:1", " p:8", "  q:5", "  q:6", " a: 3 4"].map b :=
  ⟨demo_tok, demo_simple, demo_has, by decide +kernel⟩

/-- Braces are closed by their partners if what is printed for the values has none. -/
theorem C84_nested_partial (t : Ty) (d : Str) (v : V) (ht : TOk t) (hd : Name d) (hv : Has t v) (h : ∀ s ∈ texts v, 123 ∉ s ∧ 125 ∉ s) :
    Nested (dump t d v) := dump_nested t d v ht (path_name hd) hv h

example : TOk demoTy ∧ Has demoTy (demo (b "7") (b "8")) ∧ (∀ s ∈ texts (demo (b "7") (b "8")), 123 ∉ s ∧ 125 ∉ s) ∧
    (dump demoTy (b "x") (demo (b "7") (b "8"))).count 123 = 9 :=
  ⟨demo_tok, demo_has, by decide +kernel, by decide +kernel⟩

/-- A container of numbers dumped by itself: the numbers are not separated, so 1, 2 looks like 12. -/
theorem C84_fails_separated (d s1 s2 : Str) (hd : 46 ∉ d) :
    dump (.seq .fund) d (.seq [.leaf s1, .leaf s2]) = dump (.seq .fund) d (.seq [.leaf (s1 ++ s2)]) := by
  have h : ndots d = 0 := List.count_eq_zero.2 hd
  simp [dump, container, isFund, plain, h, setw]

example : 46 ∉ b "x" ∧ dump (.seq .fund) (b "x") (.seq [.leaf (b "1"), .leaf (b "2")]) = b "x:12\n" := by decide +kernel

/-- A pointer that is null looks like one to the string "null". -/
theorem C84_fails_null (d : Str) : dump (.ptr .str) d .null = dump (.ptr .str) d (.some (.leaf (b "null"))) := rfl

/-- Strings with line ends: two objects of the same class with the same text. -/
theorem C84_fails_lines : ∃ s1 s2 t1 t2 : Str, (s1, s2) ≠ (t1, t2) ∧
    dump (.obj [some (b "x"), some (b "y")] [.str, .str]) (b "o") (.obj [.leaf s1, .leaf s2]) =
    dump (.obj [some (b "x"), some (b "y")] [.str, .str]) (b "o") (.obj [.leaf t1, .leaf t2]) :=
  ⟨b "1", b "2\n y:3", b "1\n y:2", b "3", by decide +kernel, by decide +kernel⟩

/-- Maps from numbers: the entry does not end its line, the brace that closes it follows the value. -/
theorem C84_fails_map : dump (.map .fund) (b "o.x") (.map [(b "1", .leaf (b "2")), (b "3", .leaf (b "4"))]) =
    b " x:\n  {\n[1]=2  }\n  {\n[3]=4  }\n" := by decide +kernel

/-- Maps from numbers to anything else: the name of the element goes between the key and the value. -/
theorem C84_fails_map_name : dump (.map .str) (b "o.x") (.map [(b "1", .leaf (b "one"))]) = b " x:\n  {\n[1]= x[0]:one\n  }\n" := by decide +kernel

/-- Maps from strings: the bracket before the key is lost, and the name of the element takes its place. -/
theorem C84_fails_key : dump (.smap .fund) (b "o.x") (.map [(b "one", .leaf (b "1"))]) = b " x:\n  {\n  x[0]]=:one\n x[0]:1\n  }\n" := by decide +kernel

/-- The name given by the caller is shown from its last dot on, under spaces for the others. -/
theorem C84_fails_dots (d n s : Str) (hn : 46 ∉ n) :
    dump .fund (d ++ b "." ++ n) (.leaf s) = List.replicate (ndots d + 1) 32 ++ n ++ b ":" ++ s ++ b "\n" := by
  have h1 : ndots (d ++ b "." ++ n) = ndots d + 1 := by
    rw [ndots_app hn, ndots, List.count_append]; rfl
  rw [dump, basic, format_eq, base_app hn, base_dot, h1, List.nil_append]

example : 46 ∉ b "b" ∧ dump .fund (b "a" ++ b "." ++ b "b") (.leaf (b "2")) = b " b:2\n" := by decide +kernel

end Verif.Dump
