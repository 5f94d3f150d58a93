import Verif.PyClass
import Verif.Props.PyScope
/-
C98: classes and enumerations given to Python are found under their C++ names.
-/
namespace Verif.PyClass

open Verif.PyScope (Str Ent)
open Verif.PyScope.C86 hiding Entry

namespace C98

/-- What can stand between angle brackets: the brackets match. -/
inductive Inner : Str → Prop
  | nil : Inner []
  | char (c : Nat) (s : Str) : c ≠ 60 → c ≠ 62 → Inner s → Inner (c :: s)
  | angle (a s : Str) : Inner a → Inner s → Inner (60 :: a ++ 62 :: s)

/-- A part of a qualified name, with template arguments: no colon outside them. -/
inductive Part : Str → Prop
  | nil : Part []
  | char (c : Nat) (s : Str) : c ≠ 60 → c ≠ 62 → c ≠ 58 → Part s → Part (c :: s)
  | angle (a s : Str) : Inner a → Part s → Part (60 :: a ++ 62 :: s)

/-- A class or an enumeration `c` of the namespaces or classes `ns`. -/
structure Given where
  ns : List Str
  c : Str
  /-- the enumerators, for an enumeration -/
  keys : Option (List (Str × Nat))
  deriving DecidableEq, Repr

def Given.full (g : Given) : List Str := g.ns ++ [g.c]

/-- The name of the type: `a::b::c`. -/
def Given.q (g : Given) : Str := g.ns.flatMap (· ++ [58, 58]) ++ g.c

def Given.item (g : Given) : Item :=
  match g.keys with
  | none => .cls g.q
  | some ks => .enum g.q ks

/-- The Python names it is to have. -/
def Given.puts (g : Given) : List (List Str) :=
  match g.keys with
  | none => [g.full]
  | some ks => g.full :: (ks.map (fun k => g.full ++ [k.1]) ++ ks.map (fun k => g.ns ++ [k.1]))

/-- The parts of the name are parts of names, not empty and without dots; the enumerators differ from each other and from the
name of the enumeration. -/
structure Given.Wf (g : Given) : Prop where
  part : ∀ p ∈ g.full, Part p ∧ p ≠ [] ∧ 46 ∉ p
  keys : ∀ ks, g.keys = some ks → (ks.map Prod.fst).Nodup ∧ g.c ∉ ks.map Prod.fst

/-- `y` can be given after `x`: no name of `y` is a name of `x` or of a scope `x` is in, and `y` is not in a scope with the name
of an enumeration or enumerator. -/
def After (x y : Given) : Prop :=
  (∀ p ∈ y.puts, p ∉ x.puts ∧ ¬ p <+: x.ns) ∧ (x.keys ≠ none → ∀ a, y.ns.head? = some a → [a] ∉ x.puts)

/-- Every class or enumeration is in the global scope, in a namespace or class of the global scope, or in a class given before. -/
def Nested (done : List Given) : List Given → Prop
  | [] => True
  | g :: gs => (g.ns.length ≤ 1 ∨ ∃ d ∈ done, d.keys = none ∧ d.full = g.ns) ∧ Nested (done ++ [g]) gs

/-- The names of the classes, in the order they are given in. -/
def classPaths (gs : List Given) : List (List Str) := (gs.filter (·.keys.isNone)).map Given.full

end C98
open C98

/-! ### Taking names apart -/

private theorem front_front (a b : Str) (p : List Str × Str) : front a (front b p) = front (a ++ b) p := by
  obtain ⟨x, y⟩ := p
  cases x <;> simp [front]

private theorem cut_char (n : Int) (c : Nat) (s : Str) (h : n ≠ 0 ∨ c ≠ 58) :
    cut n (c :: s) = front [c] (cut (if c = 60 then n + 1 else if c = 62 then n - 1 else n) s) := by
  rw [cut]
  intro _ h0 h1 _
  rcases h with h | h
  · exact h h0
  · exact h h1

private theorem cut_inner {a : Str} (h : Inner a) : ∀ (n : Int) (s : Str), 0 < n → cut n (a ++ s) = front a (cut n s) := by
  induction h with
  | nil => intro n s _; rw [front]; cases h : (cut n s).1 <;> simp <;> rw [← h]
  | char c t h1 h2 _ ih =>
    intro n s hn
    rw [List.cons_append, cut_char _ _ _ (.inl (by omega))]
    simp only [h1, h2, if_false]
    rw [ih n s hn, front_front]; rfl
  | angle b t _ _ ihb iht =>
    intro n s hn
    rw [List.append_assoc, List.cons_append, cut_char _ _ _ (.inl (by omega))]
    simp only [if_true]
    rw [ihb _ _ (by omega), List.cons_append, cut_char _ _ _ (.inl (by omega))]
    simp only [Nat.reduceEqDiff, if_false, if_true]
    rw [Int.add_sub_cancel, iht n s hn, front_front, front_front, front_front]
    simp

private theorem cut_part {a : Str} (h : Part a) : ∀ (s : Str), cut 0 (a ++ s) = front a (cut 0 s) := by
  induction h with
  | nil => intro s; rw [front]; cases h : (cut 0 s).1 <;> simp <;> rw [← h]
  | char c t h1 h2 h3 _ ih =>
    intro s
    rw [List.cons_append, cut_char _ _ _ (.inr h3)]
    simp only [h1, h2, if_false]
    rw [ih s, front_front]; rfl
  | angle b t hb _ iht =>
    intro s
    rw [List.append_assoc, List.cons_append, cut_char _ _ _ (.inr (by decide))]
    simp only [if_true]
    rw [cut_inner hb _ _ (by omega), List.cons_append, cut_char _ _ _ (.inr (by decide))]
    simp only [Nat.reduceEqDiff, if_false, if_true]
    rw [Int.add_sub_cancel, iht s, front_front, front_front, front_front]
    simp

private theorem strip_head {s : Str} (h : s.head? ≠ some 58) : strip s = s := by
  unfold strip
  split
  · simp at h
  · rfl

private theorem part_head {p : Str} (h : Part p) (hn : p ≠ []) (s : Str) : (p ++ s).head? ≠ some 58 := by
  cases h with
  | nil => exact absurd rfl hn
  | char c t h1 h2 h3 _ => simp [h3]
  | angle a t => simp

private theorem cut_q : ∀ (ns : List Str) (c : Str), (∀ p ∈ ns ++ [c], Part p) →
    cut 0 (ns.flatMap (· ++ [58, 58]) ++ c) = (ns, c)
  | [], c, h => by
    have := cut_part (h c (by simp)) []
    simpa [cut, front] using this
  | n :: ns, c, h => by
    have ih := cut_q ns c (fun p hp => h p (by simp at hp ⊢; exact .inr hp))
    have := cut_part (h n (by simp)) (58 :: 58 :: (ns.flatMap (· ++ [58, 58]) ++ c))
    rw [List.flatMap_cons, List.append_assoc, List.append_assoc]
    simp only [List.cons_append, List.nil_append]
    rw [this]
    simp [cut, ih, front]

private theorem cut_given {g : Given} (h : g.Wf) : cut 0 (strip g.q) = (g.ns, g.c) := by
  rw [strip_head, Given.q, cut_q _ _ (fun p hp => (h.part p hp).1)]
  rw [Given.q]
  cases hns : g.ns with
  | nil =>
    have := h.part g.c (by simp [Given.full])
    simpa using part_head this.1 this.2.1 []
  | cons n ns =>
    have := h.part n (by simp [Given.full, hns])
    rw [List.flatMap_cons, List.append_assoc, List.append_assoc]
    exact part_head this.1 this.2.1 _

/-! ### Joined names -/

private def dots (p : List Str) : Str := p.foldl dotted []

private theorem dots_snoc (p : List Str) (c : Str) : dots (p ++ [c]) = dotted (dots p) c := by
  simp [dots, List.foldl_append]

private def Good (p : List Str) : Prop := ∀ c ∈ p, c ≠ [] ∧ 46 ∉ c

private theorem good_snoc {p : List Str} {c : Str} (h : Good (p ++ [c])) : Good p ∧ c ≠ [] ∧ 46 ∉ c :=
  ⟨fun x hx => h x (by simp [hx]), h c (by simp)⟩

private theorem good_pre {p q : List Str} (h : Good q) (hp : p <+: q) : Good p := fun c hc => h c (hp.subset hc)

private theorem dots_nil {p : List Str} (h : Good p) (he : dots p = []) : p = [] := by
  rcases p.eq_nil_or_concat with rfl | ⟨q, c, rfl⟩
  · rfl
  · rw [List.concat_eq_append] at *
    obtain ⟨_, hc, _⟩ := good_snoc h
    rw [dots_snoc, dotted] at he
    exact absurd (List.append_eq_nil_iff.1 he).2 hc

private theorem last_dot {x y c d : Str} (hc : 46 ∉ c) (hd : 46 ∉ d) (h : x ++ 46 :: c = y ++ 46 :: d) : x = y ∧ c = d := by
  rcases List.append_eq_append_iff.1 h with ⟨w, h1, h2⟩ | ⟨w, h1, h2⟩
  · cases w with
    | nil => simp at h2; exact ⟨by simpa using h1.symm, h2⟩
    | cons z w =>
      simp at h2
      exact absurd (by rw [h2.2]; simp) hc
  · cases w with
    | nil => simp at h2; exact ⟨by simpa using h1, h2.symm⟩
    | cons z w =>
      simp at h2
      exact absurd (by rw [h2.2]; simp) hd

private theorem dots_inj : ∀ (p : List Str) (q : List Str), Good p → Good q → dots p = dots q → p = q := by
  refine snoc_ind ?_ ?_
  · intro q _ hq h
    exact (dots_nil hq h.symm).symm
  · intro p c ih q hp hq h
    obtain ⟨gp, hc, hc'⟩ := good_snoc hp
    rcases q.eq_nil_or_concat with rfl | ⟨q, d, rfl⟩
    · exact dots_nil hp h
    · rw [List.concat_eq_append] at *
      obtain ⟨gq, hd, hd'⟩ := good_snoc hq
      rw [dots_snoc, dots_snoc, dotted, dotted] at h
      by_cases h1 : dots p = [] <;> by_cases h2 : dots q = []
      · simp [h1, h2] at h
        rw [dots_nil gp h1, dots_nil gq h2, h]
      · simp [h1, h2] at h
        exact absurd (by rw [h]; simp) hc'
      · simp [h1, h2] at h
        exact absurd (by rw [← h]; simp) hd'
      · simp [h1, h2] at h
        obtain ⟨a, b⟩ := last_dot hc' hd' h
        rw [ih q gp gq a, b]

/-! ### Attributes -/

private structure Tree (attr : Nat → Str → Option Ent) (next : Nat) (K : List Str → Prop) : Prop where
  uniq : Uniq attr
  lt : ∀ (q : List Str) (i : Nat), resolve attr q = some (.sc i) → i < next
  empty : ∀ (i : Nat) (a : Str), next ≤ i → attr i a = none
  sub : ∀ (q : List Str) (e : Ent), resolve attr q = some e → q = [] ∨ K q

/-- What resolves still does so. -/
private def Keeps (a b : Nat → Str → Option Ent) : Prop := ∀ q e, resolve a q = some e → resolve b q = some e

private theorem snoc_ne (p : List Str) (n : Str) : p ++ [n] ≠ [] := by simp

private theorem resolve_prefix {attr : Nat → Str → Option Ent} {p q : List Str} (h : p <+: q) {e : Ent} (he : resolve attr q = some e) :
    ∃ e', resolve attr p = some e' := by
  suffices H : ∀ q, p <+: q → ∀ e, resolve attr q = some e → ∃ e', resolve attr p = some e' from H q h e he
  clear h he
  refine snoc_ind ?_ ?_
  · intro h e he
    obtain rfl := List.prefix_nil.1 h
    exact ⟨e, he⟩
  · intro q n ih h e he
    rcases prefix_snoc h with h | h
    · rw [resolve_snoc] at he
      cases hr : resolve attr q with
      | none => rw [hr] at he; cases he
      | some x => exact ih h x hr
    · exact ⟨e, h ▸ he⟩

private theorem tree_put {attr : Nat → Str → Option Ent} {next : Nat} {K : List Str → Prop} (h : Tree attr next K) {P : List Str} {id : Nat}
    (hP : resolve attr P = some (.sc id)) {n : Str} (hK : ¬ K (P ++ [n])) {e : Ent} {next' : Nat} (hn : next ≤ next')
    (he : ∀ i, e = .sc i → i = next ∧ next < next') {attr' : Nat → Str → Option Ent}
    (ha : attr' = fun i m => if i = id ∧ m = n then some e else attr i m) :
    Tree attr' next' (fun q => K q ∨ q = P ++ [n]) ∧ Keeps attr attr' ∧ resolve attr' (P ++ [n]) = some e := by
  subst ha
  have hid := h.lt P id hP
  have fr := fun q hq => set_frame h.uniq hP n e q hq
  have fa := set_at h.uniq hP n e
  have fb := set_below h.uniq hP n e (fun i hi => by
    obtain ⟨a, b⟩ := he i hi
    exact ⟨by omega, fun x => h.empty i x (by omega)⟩)
  have no : ∀ q x, resolve attr q = some x → ¬ (P ++ [n]) <+: q := by
    intro q x hq hpre
    obtain ⟨y, hy⟩ := resolve_prefix hpre hq
    rcases h.sub _ _ hy with h0 | h0
    · exact snoc_ne _ _ h0
    · exact hK h0
  have old : ∀ q x, resolve (fun i m => if i = id ∧ m = n then some e else attr i m) q = some x →
      resolve attr q = some x ∨ q = P ++ [n] ∧ x = e := by
    intro q x hq
    by_cases hp : (P ++ [n]) <+: q
    · by_cases hqe : q = P ++ [n]
      · rw [hqe, fa] at hq; cases hq; exact .inr ⟨hqe, rfl⟩
      · rw [fb q hp hqe] at hq; cases hq
    · left; rw [← hq]; exact (fr q hp).symm
  refine ⟨⟨?_, ?_, ?_, ?_⟩, ?_, fa⟩
  · intro q q' i h1 h2
    rcases old q _ h1 with a | ⟨a, a'⟩ <;> rcases old q' _ h2 with b | ⟨b, b'⟩
    · exact h.uniq q q' i a b
    · have := h.lt q i a; have := he i b'.symm; omega
    · have := h.lt q' i b; have := he i a'.symm; omega
    · rw [a, b]
  · intro q i hq
    rcases old q _ hq with a | ⟨_, a⟩
    · have := h.lt q i a; omega
    · have := he i a.symm; omega
  · intro i a hi
    show (if i = id ∧ a = n then some e else attr i a) = none
    rw [if_neg (by rintro ⟨rfl, _⟩; omega)]
    exact h.empty i a (by omega)
  · intro q x hq
    rcases old q _ hq with a | ⟨a, _⟩
    · rcases h.sub q x a with h0 | h0
      · exact .inl h0
      · exact .inr (.inl h0)
    · exact .inr (.inr a)
  · intro q x hq
    show resolve (fun i m => if i = id ∧ m = n then some e else attr i m) q = some x
    rw [fr q (no q x hq)]
    exact hq

private theorem values_cons (id : Nat) (k : Str × Nat) (ks : List (Str × Nat)) (r : Reg) :
    values id (k :: ks) r = values id ks (r.setAttr id k.1 (.obj k.2)) := rfl

private theorem tree_values (P : List Str) (id : Nat) : ∀ (ks : List (Str × Nat)) (r : Reg) (K : List Str → Prop), Tree r.attr r.next K →
    resolve r.attr P = some (.sc id) → (ks.map Prod.fst).Nodup → (∀ k ∈ ks, ¬ K (P ++ [k.1])) →
    ∃ a, values id ks r = { r with attr := a } ∧ Tree a r.next (fun q => K q ∨ q ∈ ks.map (fun k => P ++ [k.1])) ∧ Keeps r.attr a ∧
      ∀ k ∈ ks, resolve a (P ++ [k.1]) = some (.obj k.2)
  | [], r, K, h, _, _, _ => ⟨r.attr, rfl, by simpa using h, fun _ _ h => h, by simp⟩
  | k :: ks, r, K, h, hP, hnd, hK => by
    obtain ⟨t1, t2, t3⟩ := tree_put (attr' := (r.setAttr id k.1 (.obj k.2)).attr) h hP (hK k (.head _)) (Nat.le_refl _)
      (e := .obj k.2) (fun i hi => by cases hi) rfl
    rw [List.map_cons, List.nodup_cons] at hnd
    obtain ⟨a, e1, e2, e3, e4⟩ := tree_values P id ks (r.setAttr id k.1 (.obj k.2)) _ t1 (t2 _ _ hP) hnd.2 (by
      intro x hx hor
      rcases hor with h0 | h0
      · exact hK x (.tail _ hx) h0
      · have := List.append_cancel_left h0
        simp at this
        exact hnd.1 (this ▸ List.mem_map_of_mem hx))
    refine ⟨a, by rw [values_cons, e1]; rfl, ?_, fun q e hq => e3 _ _ (t2 _ _ hq), ?_⟩
    · have : (fun q => (K q ∨ q = P ++ [k.1]) ∨ q ∈ ks.map (fun k => P ++ [k.1])) =
          (fun q => K q ∨ q ∈ (k :: ks).map (fun k => P ++ [k.1])) := by
        funext q; simp [or_assoc]
      rw [← this]; exact e2
    · intro x hx
      rcases List.mem_cons.1 hx with rfl | hx
      · exact e3 _ _ t3
      · exact e4 x hx

/-! ### The registry -/

private def Known (done : List Given) (q : List Str) : Prop := ∃ g ∈ done, q ∈ g.puts ∨ ∃ a, g.ns.head? = some a ∧ q = [a]

private def NamedOk (r : Reg) : Prop :=
  ∀ m id, r.named m = some id → ∃ p, Good p ∧ p ≠ [] ∧ m = dots p ∧ resolve r.attr p = some (.sc id)

private structure Inv (r : Reg) (done : List Given) : Prop where
  tree : Tree r.attr r.next (Known done)
  cur : r.cur = 0
  named : NamedOk r
  pre : ∀ g ∈ done, g.keys = none → ∀ p, p <+: g.full → p ≠ [] → r.named (dots p) ≠ none
  head : ∀ g ∈ done, ∀ a, g.ns.head? = some a → r.named (dots [a]) ≠ none
  clsLen : r.classes.length = (classPaths done).length
  cls : ∀ (k : Nat) (p : List Str), (classPaths done)[k]? = some p → ∃ id, r.classes[k]? = some id ∧ resolve r.attr p = some (.sc id)
  enums : ∀ g ∈ done, ∀ ks, g.keys = some ks → ∀ k ∈ ks,
    resolve r.attr (g.full ++ [k.1]) = some (.obj k.2) ∧ resolve r.attr (g.ns ++ [k.1]) = some (.obj k.2)

private theorem open_found : ∀ (cs : List Str) (p : List Str) (r : Reg), (∀ q, q <+: p ++ cs → p.length < q.length → r.named (dots q) ≠ none) →
    ∃ x, openScopes cs (dots p) r = ({ r with cur := x }, dots (p ++ cs)) ∧
      ((cs = [] ∧ x = r.cur) ∨ r.named (dots (p ++ cs)) = some x)
  | [], p, r, _ => ⟨r.cur, by simp [openScopes], .inl ⟨rfl, rfl⟩⟩
  | c :: cs, p, r, h => by
    have hc := h (p ++ [c]) (by simp) (by simp)
    rw [openScopes, ← dots_snoc]
    cases hn : r.named (dots (p ++ [c])) with
    | none => exact absurd hn hc
    | some id =>
      obtain ⟨x, e1, e2⟩ := open_found cs (p ++ [c]) { r with cur := id } (by
        intro q hq hl
        refine h q (by simpa using hq) ?_
        simp at hl; omega)
      refine ⟨x, by simpa using e1, .inr ?_⟩
      rcases e2 with ⟨rfl, rfl⟩ | e2
      · simpa using hn
      · simpa using e2

private theorem named_at {r : Reg} (h : NamedOk r) {p : List Str} (hg : Good p) {id : Nat} (hn : r.named (dots p) = some id) :
    resolve r.attr p = some (.sc id) := by
  obtain ⟨q, h1, _, h3, h4⟩ := h _ _ hn
  rw [dots_inj p q hg h1 h3]; exact h4

private theorem root (attr : Nat → Str → Option Ent) : resolve attr [] = some (.sc 0) := rfl

private theorem good_of {g : Given} (h : g.Wf) : Good g.full := fun c hc => (h.part c hc).2

private theorem good_ns {g : Given} (h : g.Wf) : Good g.ns := good_pre (good_of h) (List.prefix_append _ _)

private theorem inv_openScopes {r : Reg} {done : List Given} (h : Inv r done) {g : Given} (hw : g.Wf)
    (hn : g.ns.length ≤ 1 ∨ ∃ d ∈ done, d.keys = none ∧ d.full = g.ns) (ha : ∀ d ∈ done, After d g) :
    ∃ r', openScopes g.ns [] r = (r', dots g.ns) ∧ r'.classes = r.classes ∧ resolve r'.attr g.ns = some (.sc r'.cur) ∧
      Keeps r.attr r'.attr ∧ Tree r'.attr r'.next (fun q => Known done q ∨ ∃ a, g.ns.head? = some a ∧ q = [a]) ∧ NamedOk r' ∧
      (∀ m, r.named m ≠ none → r'.named m ≠ none) ∧ (∀ p, p <+: g.ns → p ≠ [] → r'.named (dots p) ≠ none) := by
  have found : (∀ p, p <+: g.ns → p ≠ [] → r.named (dots p) ≠ none) → ∃ r', openScopes g.ns [] r = (r', dots g.ns) ∧
      r'.classes = r.classes ∧ resolve r'.attr g.ns = some (.sc r'.cur) ∧
      Keeps r.attr r'.attr ∧ Tree r'.attr r'.next (fun q => Known done q ∨ ∃ a, g.ns.head? = some a ∧ q = [a]) ∧ NamedOk r' ∧
      (∀ m, r.named m ≠ none → r'.named m ≠ none) ∧ (∀ p, p <+: g.ns → p ≠ [] → r'.named (dots p) ≠ none) := by
    intro hall
    obtain ⟨x, e1, e2⟩ := open_found g.ns [] r (by
      intro q hq hl
      exact hall q (by simpa using hq) (by rintro rfl; simp at hl))
    refine ⟨{ r with cur := x }, by simpa [show dots [] = [] from rfl] using e1, rfl, ?_, fun _ _ h => h, ?_, h.named, fun _ h => h, hall⟩
    · rcases e2 with ⟨h0, rfl⟩ | e2
      · rw [h0, h.cur]; rfl
      · exact named_at h.named (good_ns hw) (by simpa using e2)
    · exact ⟨h.tree.uniq, h.tree.lt, h.tree.empty, fun q e hq => (h.tree.sub q e hq).imp id Or.inl⟩
  rcases hn with hn | ⟨d, hd, hk, hf⟩
  · have two : g.ns = [] ∨ ∃ a, g.ns = [a] := by
      match g.ns, hn with
      | [], _ => exact .inl rfl
      | [a], _ => exact .inr ⟨a, rfl⟩
    rcases two with hns | ⟨a, hns⟩
    · exact found (by intro p hp hne; rw [hns] at hp; exact absurd (List.prefix_nil.1 hp) hne)
    · have da : dots [a] = a := by simp [dots, dotted]
      cases hnm : r.named (dots [a]) with
      | some id =>
        refine found (fun p hp hne => ?_)
        have : p = [a] := by
          rw [hns] at hp
          rcases prefix_snoc (q := []) (a := a) (by simpa using hp) with h0 | h0
          · exact absurd (List.prefix_nil.1 h0) hne
          · simpa using h0
        rw [this, hnm]; simp
      | none =>
        have hfresh : ¬ Known done ([] ++ [a]) := by
          rintro ⟨d, hd, h1 | ⟨b, h1, h2⟩⟩
          · cases hk : d.keys with
            | none =>
              have : d.puts = [d.full] := by rw [Given.puts, hk]
              rw [this] at h1
              have h2 : d.full = [a] := by simpa [eq_comm] using h1
              exact h.pre d hd hk [a] (by rw [h2]; exact List.prefix_refl _) (by simp) hnm
            | some ks =>
              exact (ha d hd).2 (by rw [hk]; simp) a (by rw [hns]; rfl) (by simpa using h1)
          · simp at h2
            subst h2
            exact h.head d hd a h1 hnm
        have hcur : resolve r.attr [] = some (.sc r.cur) := by rw [h.cur]; rfl
        obtain ⟨t1, t2, t3⟩ := tree_put (attr' := (r.setAttr r.cur a (.sc r.next)).attr) h.tree hcur hfresh (next' := r.next + 1) (by omega)
          (e := .sc r.next) (fun i hi => by cases hi; exact ⟨rfl, Nat.lt_succ_self _⟩) rfl
        have hna : r.named a = none := by rw [← da]; exact hnm
        rw [hns]
        refine ⟨{ (r.make a).1.name a r.next with cur := r.next }, ?_, rfl, by simpa [Reg.name, Reg.make] using t3, t2, ?_, ?_, ?_, ?_⟩
        · simp [openScopes, dotted, hna, dots, Reg.make]
        · refine ⟨t1.uniq, t1.lt, t1.empty, fun q e hq => (t1.sub q e hq).imp id ?_⟩
          rintro (h0 | h0)
          · exact .inl h0
          · exact .inr ⟨a, rfl, by simpa using h0⟩
        · intro m id hm
          simp only [Reg.name, Reg.make, Reg.setAttr] at hm
          split at hm
          · cases hm
            subst_vars
            have hg := good_ns hw
            rw [hns] at hg
            exact ⟨[m], hg, by simp, by simp [dots, dotted], by simpa [Reg.name, Reg.make] using t3⟩
          · obtain ⟨p, g1, g2, g3, g4⟩ := h.named m id hm
            exact ⟨p, g1, g2, g3, t2 _ _ g4⟩
        · intro m hm
          simp only [Reg.name, Reg.make, Reg.setAttr]
          split
          · simp
          · exact hm
        · intro p hp hne
          have : p = [a] := by
            rcases prefix_snoc (q := []) (a := a) (by simpa using hp) with h0 | h0
            · exact absurd (List.prefix_nil.1 h0) hne
            · simpa using h0
          rw [this, da]
          simp [Reg.name]
  · exact found (fun p hp hne => h.pre d hd hk p (hf ▸ hp) hne)

private theorem tree_mono {attr : Nat → Str → Option Ent} {next : Nat} {K K' : List Str → Prop} (h : Tree attr next K) (hk : ∀ q, K q → K' q) :
    Tree attr next K' := ⟨h.uniq, h.lt, h.empty, fun q e hq => (h.sub q e hq).imp id (hk q)⟩

private theorem fresh {done : List Given} {g : Given} (ha : ∀ d ∈ done, After d g) {q : List Str} (hq : q ∈ g.puts) :
    ¬ (Known done q ∨ ∃ a, g.ns.head? = some a ∧ q = [a]) := by
  rintro (⟨d, hd, h1 | ⟨a, h1, h2⟩⟩ | ⟨a, h1, h2⟩)
  · exact ((ha d hd).1 q hq).1 h1
  · refine ((ha d hd).1 q hq).2 ?_
    cases hns : d.ns with
    | nil => rw [hns] at h1; cases h1
    | cons b t =>
      rw [hns] at h1
      cases h1
      exact ⟨t, by rw [h2]; rfl⟩
  · cases hns : g.ns with
    | nil => rw [hns] at h1; cases h1
    | cons b t =>
      have : 2 ≤ q.length := by
        unfold Given.puts at hq
        split at hq
        · simp only [List.mem_singleton] at hq
          rw [hq, Given.full, hns]; simp
        · simp only [List.mem_cons, List.mem_append, List.mem_map] at hq
          rcases hq with rfl | ⟨k, _, rfl⟩ | ⟨k, _, rfl⟩ <;> simp [Given.full, hns]
      rw [h2] at this
      simp at this

private theorem paths_append (done : List Given) (g : Given) : classPaths (done ++ [g]) =
    classPaths done ++ (if g.keys = none then [g.full] else []) := by
  unfold classPaths
  rw [List.filter_append, List.map_append]
  congr 1
  cases h : g.keys <;> simp [h]

private theorem inv_cls {r : Reg} {done : List Given} (h : Inv r done) {g : Given} (hw : g.Wf) (hk : g.keys = none)
    (hn : g.ns.length ≤ 1 ∨ ∃ d ∈ done, d.keys = none ∧ d.full = g.ns) (ha : ∀ d ∈ done, After d g) : Inv (getClass g.q r) (done ++ [g]) := by
  obtain ⟨r', e1, e2, e3, e4, e5, e6, e7, e8⟩ := inv_openScopes h hw hn ha
  have hp : g.puts = [g.full] := by rw [Given.puts, hk]
  have hf := fresh ha (q := g.full) (by rw [hp]; simp)
  obtain ⟨t1, t2, t3⟩ := tree_put (attr' := (r'.setAttr r'.cur g.c (.sc r'.next)).attr) e5 e3 hf (next' := r'.next + 1) (by omega)
    (e := .sc r'.next) (fun i hi => by cases hi; exact ⟨rfl, Nat.lt_succ_self _⟩) rfl
  have hdots : dotted (dots g.ns) g.c = dots g.full := by rw [Given.full, dots_snoc]
  have hnone : r'.named (dots g.full) = none := by
    cases hx : r'.named (dots g.full) with
    | none => rfl
    | some id =>
      have := named_at e6 (good_of hw) hx
      rcases e5.sub _ _ this with h0 | h0
      · exact absurd h0 (snoc_ne _ _)
      · exact absurd h0 hf
  have heq : getClass g.q r = { (r'.make g.c).1.name (dots g.full) r'.next with cur := r.cur, classes := r.classes ++ [r'.next] } := by
    simp only [getClass]
    rw [cut_given hw]
    simp only [e1, hdots]
    have : (r'.make g.c).1.named (dots g.full) = none := hnone
    rw [if_pos this]
    rfl
  have hattr : (getClass g.q r).attr = (r'.setAttr r'.cur g.c (.sc r'.next)).attr := by rw [heq]; rfl
  have hnamed : ∀ m, (getClass g.q r).named m = if m = dots g.full then some r'.next else r'.named m := by intro m; rw [heq]; rfl
  have keep : Keeps r.attr (getClass g.q r).attr := by rw [hattr]; exact fun q e hq => t2 _ _ (e4 _ _ hq)
  have self : resolve (getClass g.q r).attr g.full = some (.sc r'.next) := by rw [hattr]; exact t3
  have hmono : ∀ m, r'.named m ≠ none → (getClass g.q r).named m ≠ none := by
    intro m hm; rw [hnamed]; split
    · simp
    · exact hm
  refine ⟨?_, ?_, ?_, ?_, ?_, ?_, ?_, ?_⟩
  · rw [hattr]
    have : (getClass g.q r).next = r'.next + 1 := by rw [heq]; rfl
    rw [this]
    refine tree_mono t1 ?_
    rintro q ((⟨d, hd, h0⟩ | h0) | h0)
    · exact ⟨d, List.mem_append_left _ hd, h0⟩
    · exact ⟨g, by simp, .inr h0⟩
    · exact ⟨g, by simp, .inl (by rw [hp, h0]; exact .head _)⟩
  · rw [heq]; exact h.cur
  · intro m id hm
    rw [hnamed] at hm
    split at hm
    · cases hm
      exact ⟨g.full, good_of hw, snoc_ne _ _, by assumption, self⟩
    · obtain ⟨p, g1, g2, g3, g4⟩ := e6 m id hm
      exact ⟨p, g1, g2, g3, by rw [hattr]; exact t2 _ _ g4⟩
  · intro d hd hkd p hpre hne
    rcases List.mem_append.1 hd with hd | hd
    · exact hmono _ (e7 _ (h.pre d hd hkd p hpre hne))
    · simp only [List.mem_singleton] at hd
      subst hd
      rcases prefix_snoc hpre with h0 | h0
      · exact hmono _ (e8 p h0 hne)
      · rw [hnamed, if_pos (by rw [h0, Given.full])]; simp
  · intro d hd a hda
    rcases List.mem_append.1 hd with hd | hd
    · exact hmono _ (e7 _ (h.head d hd a hda))
    · simp only [List.mem_singleton] at hd
      subst hd
      refine hmono _ (e8 [a] ?_ (by simp))
      cases hns : d.ns with
      | nil => rw [hns] at hda; cases hda
      | cons b t => rw [hns] at hda; cases hda; exact ⟨t, rfl⟩
  · rw [heq, paths_append, if_pos hk]
    simp [h.clsLen]
  · intro k p hkp
    have hc : (getClass g.q r).classes = r.classes ++ [r'.next] := by rw [heq]
    rw [paths_append, if_pos hk] at hkp
    rw [hc]
    by_cases hlt : k < (classPaths done).length
    · rw [List.getElem?_append_left hlt] at hkp
      obtain ⟨id, i1, i2⟩ := h.cls k p hkp
      exact ⟨id, by rw [List.getElem?_append_left (by rw [h.clsLen]; exact hlt)]; exact i1, keep _ _ i2⟩
    · rw [List.getElem?_append_right (by omega)] at hkp
      have hz : k - (classPaths done).length = 0 := by
        have := (List.getElem?_eq_some_iff.1 hkp).1
        simp at this; omega
      rw [hz] at hkp
      simp at hkp
      refine ⟨r'.next, by rw [List.getElem?_append_right (by rw [h.clsLen]; omega), h.clsLen, hz]; rfl, by rw [← hkp]; exact self⟩
  · intro d hd ks hks k hk'
    rcases List.mem_append.1 hd with hd | hd
    · obtain ⟨a, b⟩ := h.enums d hd ks hks k hk'
      exact ⟨keep _ _ a, keep _ _ b⟩
    · simp only [List.mem_singleton] at hd
      subst hd
      rw [hk] at hks; cases hks

private theorem inv_enum {r : Reg} {done : List Given} (h : Inv r done) {g : Given} (hw : g.Wf) {ks : List (Str × Nat)} (hk : g.keys = some ks)
    (hn : g.ns.length ≤ 1 ∨ ∃ d ∈ done, d.keys = none ∧ d.full = g.ns) (ha : ∀ d ∈ done, After d g) : Inv (defineEnum g.q ks r) (done ++ [g]) := by
  obtain ⟨r', e1, e2, e3, e4, e5, e6, e7, e8⟩ := inv_openScopes h hw hn ha
  have hp : g.puts = g.full :: (ks.map (fun k => g.full ++ [k.1]) ++ ks.map (fun k => g.ns ++ [k.1])) := by rw [Given.puts, hk]
  have hf := fresh ha (q := g.full) (by rw [hp]; simp)
  obtain ⟨nd, nc⟩ := hw.keys ks hk
  obtain ⟨t1, t2, t3⟩ := tree_put (attr' := (r'.setAttr r'.cur g.c (.sc r'.next)).attr) e5 e3 hf (next' := r'.next + 1) (by omega)
    (e := .sc r'.next) (fun i hi => by cases hi; exact ⟨rfl, Nat.lt_succ_self _⟩) rfl
  obtain ⟨a1, u1, u2, u3, u4⟩ := tree_values g.full r'.next ks (r'.make g.c).1 _ t1 t3 nd (by
    intro k hkk hor
    rcases hor with h0 | h0
    · exact fresh ha (q := g.full ++ [k.1]) (by rw [hp]; exact .tail _ (List.mem_append_left _ (List.mem_map.2 ⟨k, hkk, rfl⟩))) h0
    · have := congrArg List.length h0; simp [Given.full] at this)
  obtain ⟨a2, w1, w2, w3, w4⟩ := tree_values g.ns r'.cur ks { (r'.make g.c).1 with attr := a1 } _ u2 (u3 _ _ (t2 _ _ e3)) nd (by
    intro k hkk hor
    rcases hor with (h0 | h0) | h0
    · exact fresh ha (q := g.ns ++ [k.1]) (by rw [hp]; exact .tail _ (List.mem_append_right _ (List.mem_map.2 ⟨k, hkk, rfl⟩))) h0
    · have := List.append_cancel_left h0
      simp at this
      exact nc (this ▸ List.mem_map_of_mem hkk)
    · simp only [List.mem_map] at h0
      obtain ⟨x, _, hx⟩ := h0
      have := congrArg List.length hx; simp [Given.full] at this)
  have heq : defineEnum g.q ks r = { r' with attr := a2, next := r'.next + 1, cur := r.cur } := by
    simp only [defineEnum]
    rw [cut_given hw]
    simp only [e1]
    rw [show (r'.make g.c).2 = r'.next from rfl, u1]
    have w1' : values r'.cur ks ⟨a1, (r'.make g.c).1.next, r'.cur, (r'.make g.c).1.named, (r'.make g.c).1.classes⟩ =
        ⟨a2, r'.next + 1, r'.cur, r'.named, r'.classes⟩ := w1
    rw [show (r'.make g.c).1.cur = r'.cur from rfl, w1']
  have keep' : Keeps r'.attr a2 := fun q e hq => w3 _ _ (u3 _ _ (t2 _ _ hq))
  have keep : Keeps r.attr (defineEnum g.q ks r).attr := by rw [heq]; exact fun q e hq => keep' _ _ (e4 _ _ hq)
  have hnamed : (defineEnum g.q ks r).named = r'.named := by rw [heq]
  refine ⟨?_, ?_, ?_, ?_, ?_, ?_, ?_, ?_⟩
  · rw [heq]
    refine tree_mono w2 ?_
    rintro q ((((⟨d, hd, h0⟩ | h0) | h0) | h0) | h0)
    · exact ⟨d, List.mem_append_left _ hd, h0⟩
    · exact ⟨g, by simp, .inr h0⟩
    · exact ⟨g, by simp, .inl (by rw [hp, h0]; exact .head _)⟩
    · exact ⟨g, by simp, .inl (by rw [hp]; exact .tail _ (List.mem_append_left _ h0))⟩
    · exact ⟨g, by simp, .inl (by rw [hp]; exact .tail _ (List.mem_append_right _ h0))⟩
  · rw [heq]; exact h.cur
  · intro m id hm
    rw [hnamed] at hm
    obtain ⟨p, g1, g2, g3, g4⟩ := e6 m id hm
    exact ⟨p, g1, g2, g3, by rw [heq]; exact keep' _ _ g4⟩
  · intro d hd hkd p hpre hne
    rw [hnamed]
    rcases List.mem_append.1 hd with hd | hd
    · exact e7 _ (h.pre d hd hkd p hpre hne)
    · simp only [List.mem_singleton] at hd
      subst hd
      rw [hk] at hkd; cases hkd
  · intro d hd a hda
    rw [hnamed]
    rcases List.mem_append.1 hd with hd | hd
    · exact e7 _ (h.head d hd a hda)
    · simp only [List.mem_singleton] at hd
      subst hd
      refine e8 [a] ?_ (by simp)
      cases hns : d.ns with
      | nil => rw [hns] at hda; cases hda
      | cons b t => rw [hns] at hda; cases hda; exact ⟨t, rfl⟩
  · rw [heq, paths_append, hk]
    simp [h.clsLen, e2]
  · intro k p hkp
    rw [paths_append, hk] at hkp
    simp only [reduceCtorEq, if_false, List.append_nil] at hkp
    obtain ⟨id, i1, i2⟩ := h.cls k p hkp
    exact ⟨id, by rw [heq]; simpa [e2] using i1, keep _ _ i2⟩
  · intro d hd ks' hks k hk'
    rcases List.mem_append.1 hd with hd | hd
    · obtain ⟨a, b⟩ := h.enums d hd ks' hks k hk'
      exact ⟨keep _ _ a, keep _ _ b⟩
    · simp only [List.mem_singleton] at hd
      subst hd
      rw [hk] at hks; cases hks
      rw [heq]
      exact ⟨w3 _ _ (u4 k hk'), w4 k hk'⟩

private theorem inv_init : Inv Reg.init [] := by
  have : ∀ q : List Str, q ≠ [] → resolve Reg.init.attr q = none := by
    refine snoc_ind (fun h => absurd rfl h) ?_
    intro p n _ _
    rw [resolve_snoc]
    cases resolve Reg.init.attr p with
    | none => rfl
    | some e => cases e <;> rfl
  refine ⟨⟨?_, ?_, fun _ _ _ => rfl, ?_⟩, rfl, ?_, ?_, ?_, rfl, ?_, ?_⟩
  · intro q q' i h h'
    by_cases hq : q = []
    · by_cases hq' : q' = []
      · rw [hq, hq']
      · rw [this _ hq'] at h'; cases h'
    · rw [this _ hq] at h; cases h
  · intro q i h
    by_cases hq : q = []
    · rw [hq] at h; cases h; exact Nat.one_pos
    · rw [this _ hq] at h; cases h
  · intro q e h
    by_cases hq : q = []
    · exact .inl hq
    · rw [this _ hq] at h; cases h
  · intro m id h; cases h
  · intro g hg; cases hg
  · intro g hg; cases hg
  · intro k p h; cases h
  · intro g hg; cases hg

private theorem inv_all : ∀ (gs done : List Given) (r : Reg), Inv r done → (∀ g ∈ gs, g.Wf) → (done ++ gs).Pairwise After → Nested done gs →
    Inv (regAll (gs.map Given.item) r) (done ++ gs)
  | [], done, r, h, _, _, _ => by simpa [regAll] using h
  | g :: gs, done, r, h, hw, hp, hn => by
    have ha : ∀ d ∈ done, After d g := fun d hd => (List.pairwise_append.1 hp).2.2 d hd g (.head _)
    have step : Inv (g.item.reg r) (done ++ [g]) := by
      unfold Given.item
      cases hk : g.keys with
      | none => exact inv_cls h (hw g (.head _)) hk hn.1 ha
      | some ks => exact inv_enum h (hw g (.head _)) hk hn.1 ha
    have := inv_all gs (done ++ [g]) _ step (fun x hx => hw x (.tail _ hx)) (by simpa using hp) hn.2
    simpa [regAll] using this

/-- Classes and enumerations of the global scope, of namespaces and classes there, and of classes given to Python before them: each
class is found under its name and is the one `getClass` made for it; the enumerators are found in their enumeration and in the scope
that is in, with their values; different names lead to different objects; and the module is still the current scope. -/
theorem C98_found_partial (gs : List Given) (hw : ∀ g ∈ gs, g.Wf) (hp : gs.Pairwise After) (hn : Nested [] gs) :
    let r := regAll (gs.map Given.item) Reg.init
    r.cur = 0 ∧ r.classes.length = (classPaths gs).length ∧
    (∀ (k : Nat) (p : List Str), (classPaths gs)[k]? = some p → ∃ id, r.classes[k]? = some id ∧ resolve r.attr p = some (.sc id)) ∧
    (∀ g ∈ gs, ∀ ks, g.keys = some ks → ∀ k ∈ ks,
      resolve r.attr (g.full ++ [k.1]) = some (.obj k.2) ∧ resolve r.attr (g.ns ++ [k.1]) = some (.obj k.2)) ∧
    (∀ p q i, resolve r.attr p = some (.sc i) → resolve r.attr q = some (.sc i) → p = q) := by
  have h := inv_all gs [] Reg.init inv_init hw (by simpa using hp) hn
  simp only [List.nil_append] at h
  exact ⟨h.cur, h.clsLen, h.cls, h.enums, h.tree.uniq⟩

/-- `A`, `A::B`, `A::B::C<x::y>`, `n::f` and the enumeration `A::e` with the values `p` and `q`. -/
example : ∃ gs : List Given, gs = [⟨[], [65], none⟩, ⟨[[65]], [66], none⟩, ⟨[[65], [66]], [67, 60, 120, 58, 58, 121, 62], none⟩, ⟨[[110]], [102], none⟩,
      ⟨[[65]], [101], some [([112], 0), ([113], 4)]⟩] ∧
    (∀ g ∈ gs, g.Wf) ∧ gs.Pairwise After ∧ Nested [] gs ∧
    resolve (regAll (gs.map Given.item) Reg.init).attr [[65], [66], [67, 60, 120, 58, 58, 121, 62]] = some (.sc 3) ∧
    resolve (regAll (gs.map Given.item) Reg.init).attr [[65], [101], [113]] = some (.obj 4) ∧
    resolve (regAll (gs.map Given.item) Reg.init).attr [[65], [113]] = some (.obj 4) ∧
    (regAll (gs.map Given.item) Reg.init).classes = [1, 2, 3, 5] := by
  have p1 : ∀ c, c ≠ 60 → c ≠ 62 → c ≠ 58 → Part [c] := fun c h1 h2 h3 => .char c [] h1 h2 h3 .nil
  have p2 : Part [67, 60, 120, 58, 58, 121, 62] := .char 67 _ (by decide) (by decide) (by decide)
    (.angle [120, 58, 58, 121] [] (.char _ _ (by decide) (by decide) (.char _ _ (by decide) (by decide) (.char _ _ (by decide) (by decide)
      (.char _ _ (by decide) (by decide) .nil)))) .nil)
  refine ⟨_, rfl, ?_, by unfold After; decide +kernel, ?_, by decide +kernel, by decide +kernel, by decide +kernel, by decide +kernel⟩
  · intro g hg
    have nk : ∀ ns c, (∀ p ∈ ns ++ [c], Part p ∧ p ≠ [] ∧ 46 ∉ p) → Given.Wf ⟨ns, c, none⟩ := fun ns c h => ⟨h, fun ks hk => by cases hk⟩
    simp only [List.mem_cons, List.not_mem_nil, or_false] at hg
    rcases hg with rfl | rfl | rfl | rfl | rfl
    · exact nk _ _ (by simp [p1])
    · exact nk _ _ (by simp [p1])
    · exact nk _ _ (by simp [p1, p2])
    · exact nk _ _ (by simp [p1])
    · exact ⟨by simp [Given.full, p1], fun ks hk => by cases hk; decide⟩
  · simp [Nested, Given.full]

/-- Whatever is given to Python, the scope that was current stays so. -/
theorem C98_scope (is : List Item) (r : Reg) : (regAll is r).cur = r.cur := by
  induction is generalizing r with
  | nil => rfl
  | cons i is ih =>
    rw [show regAll (i :: is) r = regAll is (i.reg r) from rfl, ih]
    cases i <;> rfl

private theorem wf_cls {ns : List Str} {c : Str} (h : ∀ p ∈ ns ++ [c], Part p ∧ p ≠ [] ∧ 46 ∉ p) : Given.Wf ⟨ns, c, none⟩ :=
  ⟨h, fun ks hk => by cases hk⟩

/-- Two namespaces deep: the first class given to Python from there is not found under its name, and neither is the inner namespace.
It is an attribute of something whose name contains a dot. -/
theorem C98_fails_deep (a b c : Str) (h : ∀ p ∈ [a, b, c], Part p ∧ p ≠ [] ∧ 46 ∉ p) :
    let r := regAll [Given.item ⟨[a, b], c, none⟩] Reg.init
    resolve r.attr [a, b] = none ∧ resolve r.attr [a, b, c] = none ∧
    ∃ id, r.classes = [id] ∧ resolve r.attr [a, a ++ 46 :: b, c] = some (.sc id) := by
  have ha := h a (by simp)
  have hb := h b (by simp)
  have hc := h c (by simp)
  have hq := cut_given (wf_cls (ns := [a, b]) (c := c) (by simpa using h))
  have hd : dotted a b = a ++ 46 :: b := by simp [dotted, ha.2.1]
  have ne1 : b ≠ a ++ 46 :: b := by intro e; exact hb.2.2 (by rw [e]; simp)
  have ne2 : a ++ 46 :: b ≠ a := by intro e; exact ha.2.2 (by rw [← e]; simp)
  have ne3 : c ≠ a ++ 46 :: b := by intro e; exact hc.2.2 (by rw [e]; simp)
  have hd2 : dotted [] a = a := rfl
  have key : ∀ r, r = regAll [Given.item ⟨[a, b], c, none⟩] Reg.init → r.classes = [3] ∧
      ∀ i n, r.attr i n = if i = 2 ∧ n = c then some (.sc 3) else if i = 1 ∧ n = a ++ 46 :: b then some (.sc 2)
        else if i = 0 ∧ n = a then some (.sc 1) else none := by
    rintro r rfl
    simp only [regAll, List.foldl_cons, List.foldl_nil, Given.item, Item.reg, getClass, hq]
    simp [openScopes, hd2, hd, Reg.init, Reg.make, Reg.name, Reg.setAttr, ne2]
    intro i n
    generalize (if dotted (a ++ 46 :: b) c = a ++ 46 :: b then some 2 else if dotted (a ++ 46 :: b) c = a then some 1 else none) = o
    cases o <;> rfl
  obtain ⟨k1, k2⟩ := key _ rfl
  refine ⟨?_, ?_, 3, k1, ?_⟩
  · simp [resolve, attrOf, k2, ne1]
  · simp [resolve, attrOf, k2, ne1]
  · simp [resolve, attrOf, k2]

/-- A class of a class that is given to Python after it: the inner class cannot be found any more. -/
theorem C98_fails_order (a b : Str) (h : ∀ p ∈ [a, b], Part p ∧ p ≠ [] ∧ 46 ∉ p) :
    let r := regAll [Given.item ⟨[a], b, none⟩, Given.item ⟨[], a, none⟩] Reg.init
    resolve r.attr [a, b] = none ∧ ∃ i j, r.classes = [i, j] ∧ resolve r.attr [a] = some (.sc j) := by
  have ha := h a (by simp)
  have hb := h b (by simp)
  have hq1 := cut_given (wf_cls (ns := [a]) (c := b) (by simpa using h))
  have hq2 := cut_given (wf_cls (ns := []) (c := a) (by intro p hp; simp at hp; rw [hp]; exact ha))
  have hd : dotted a b = a ++ 46 :: b := by simp [dotted, ha.2.1]
  have ne2 : a ++ 46 :: b ≠ a := by intro e; exact ha.2.2 (by rw [← e]; simp)
  have hd2 : dotted [] a = a := rfl
  have key : ∀ r, r = regAll [Given.item ⟨[a], b, none⟩, Given.item ⟨[], a, none⟩] Reg.init → r.classes = [2, 3] ∧
      ∀ i n, r.attr i n = if i = 0 ∧ n = a then some (.sc 3) else if i = 1 ∧ n = b then some (.sc 2) else none := by
    rintro r rfl
    simp only [regAll, List.foldl_cons, List.foldl_nil, Given.item, Item.reg, getClass, hq1, hq2]
    simp [openScopes, hd2, hd, Reg.init, Reg.make, Reg.name, Reg.setAttr, ne2]
    intro i n
    by_cases h1 : i = 0 ∧ n = a <;> by_cases h2 : i = 1 ∧ n = b <;> simp [h1, h2]
  obtain ⟨k1, k2⟩ := key _ rfl
  refine ⟨?_, 2, 3, k1, ?_⟩
  · simp [resolve, attrOf, k2]
  · simp [resolve, attrOf, k2]

/-- While the scope `s` is open, as it is when the classes of the arguments of a function `s.f` are defined, a class of the global
scope ends up in `s`. -/
theorem C98_fails_scope (s c : Str) (h : Part c ∧ c ≠ [] ∧ 46 ∉ c) (hne : c ≠ s) :
    let r := regAll [Given.item ⟨[], c, none⟩] { (Reg.init.make s).1 with cur := 1 }
    resolve r.attr [c] = none ∧ ∃ id, r.classes = [id] ∧ resolve r.attr [s, c] = some (.sc id) := by
  have hq := cut_given (wf_cls (ns := []) (c := c) (by intro p hp; simp at hp; rw [hp]; exact h))
  have key : ∀ r, r = regAll [Given.item ⟨[], c, none⟩] { (Reg.init.make s).1 with cur := 1 } → r.classes = [2] ∧
      ∀ i n, r.attr i n = if i = 1 ∧ n = c then some (.sc 2) else if i = 0 ∧ n = s then some (.sc 1) else none := by
    rintro r rfl
    simp only [regAll, List.foldl_cons, List.foldl_nil, Given.item, Item.reg, getClass, hq]
    simp [openScopes, Reg.init, Reg.make, Reg.name, Reg.setAttr]
    intro i n; rfl
  obtain ⟨k1, k2⟩ := key _ rfl
  refine ⟨?_, 2, k1, ?_⟩
  · simp [resolve, attrOf, k2, hne]
  · simp [resolve, attrOf, k2]

end Verif.PyClass
