import Verif.PyCont
/-
C85: containers and arrays given to Python behave as Python's own.
-/
namespace Verif.PyCont
open OMap

namespace C85

/-- The element an index of Python's denotes; negative ones count from the end. -/
def place (n : Nat) (i : Int) : Option Nat :=
  if 0 ≤ i then (if i < n then some i.toNat else none) else if 0 ≤ n + i then some (n + i).toNat else none

/-- A list of Python's and an iterator of it: the operations. -/
def pyStep {α} (c : List α) (it : Option Nat) : Op α → Obs α × List α × Option Nat
  | .len => (.num c.length, c, it)
  | .get i =>
    match (place c.length i).bind (c[·]?) with
    | some a => (.val a, c, it)
    | none => (.indexError, c, it)
  | .set _ none => (.typeError, c, it)
  | .set i (some v) =>
    match place c.length i with
    | some n => (.none, c.set n v, it)
    | none => (.indexError, c, it)
  | .assign l => if l.all Option.isSome = true then (.none, l.filterMap id, it) else (.typeError, c, it)
  | .iter => (.none, c, some 0)
  | .next =>
    match it with
    | none => (.stop, c, none)
    | some n =>
      match c[n]? with
      | some a => (.val a, c, some (n + 1))
      | none => (.stop, c, none)

def pyRun {α} : List α → Option Nat → List (Op α) → List (Obs α)
  | _, _, [] => []
  | c, it, o :: os => (pyStep c it o).1 :: pyRun (pyStep c it o).2.1 (pyStep c it o).2.2 os

/-- Indices are not negative and fit a machine word. -/
def Fits {α} : Op α → Prop
  | .get i => 0 ≤ i ∧ i < 2 ^ 64
  | .set i _ => 0 ≤ i ∧ i < 2 ^ 64
  | .assign l => l.length < 2 ^ 64
  | _ => True

/-- A nested list of Python's. -/
inductive Nest (α : Type)
  | leaf (a : α)
  | node (l : List (Nest α))

/-- The elements of an array with these bounds, row by row. -/
def nested {α} : List Nat → List α → Option (Nest α)
  | [], a :: _ => some (.leaf a)
  | [], [] => none
  | n :: ns, l => some (.node ((List.range n).filterMap fun i => nested ns (l.drop (i * prod ns))))

def Nest.at {α} : Nest α → List Nat → Option α
  | .leaf a, [] => some a
  | .node l, i :: is => (l[i]?).bind (Nest.at · is)
  | _, _ => none

/-- Indices within the bounds. -/
inductive Within : List Nat → List Nat → Prop
  | nil : Within [] []
  | cons {n ns i is} : i < n → Within ns is → Within (n :: ns) (i :: is)

/-- What was got from the iterator. -/
def yields {K} : List (Obs K) → List K
  | [] => []
  | .val k :: os => k :: yields os
  | _ :: os => yields os

end C85
open C85

/-! ### Sequences -/

private theorem index_ok {i : Int} (h : 0 ≤ i ∧ i < 2 ^ 64) : index i = some i.toNat := by rw [index, if_pos ⟨h.1, by omega⟩]

private theorem get_ok {α} (c : List α) {i : Int} (h : 0 ≤ i ∧ i < 2 ^ 64) : getItem c i =
    match (place c.length i).bind (c[·]?) with
    | some a => .val a
    | none => .indexError := by
  rw [getItem, index_ok h]
  simp only [place, if_pos h.1]
  by_cases hl : i < c.length
  · have : ¬ i.toNat ≥ c.length := by omega
    rw [if_neg this, if_pos hl]
    have h2 : i.toNat < c.length := by omega
    simp [List.getElem?_eq_getElem h2]
  · have : i.toNat ≥ c.length := by omega
    rw [if_pos this, if_neg hl]
    rfl

private theorem convert_eq {α} : ∀ (l : List (Option α)) (x : List α),
    convert l x = if l.all Option.isSome = true then some (x ++ l.filterMap id) else none := by
  intro l
  induction l with
  | nil => intro x; simp [convert]
  | cons v l ih =>
    intro x
    cases v with
    | none => simp [convert]
    | some v =>
      rw [convert, ih]
      simp

private theorem cast_lt {n : Nat} (h : n < 2 ^ 64) : 0 ≤ (n : Int) ∧ (n : Int) < 2 ^ 64 := ⟨Int.natCast_nonneg n, by exact_mod_cast h⟩

private theorem some_lt {n m k : Nat} (h : n < k) (hm : some n = some m) : m < k := by cases hm; exact h

private theorem succ_lt {n l k : Nat} (h : n < l) (hm : l < k) : n + 1 < k := by omega

private theorem next_ok {α} (s : St α) (W : Nat)
    (hg : ∀ n : Nat, n < W → getItem s.c (n : Int) = match (place s.c.length (n : Int)).bind (s.c[·]?) with
      | some a => .val a
      | none => .indexError)
    (hl : s.c.length < W) (hi : ∀ n, s.it = some n → n < W) :
    (step true s .next).1 = (pyStep s.c s.it .next).1 ∧ (step true s .next).2.c = (pyStep s.c s.it .next).2.1 ∧
    (step true s .next).2.it = (pyStep s.c s.it .next).2.2 ∧
    (step true s .next).2.c.length < W ∧ (∀ n, (step true s .next).2.it = some n → n < W) := by
  obtain ⟨c, it⟩ := s
  cases it with
  | none => exact ⟨rfl, rfl, rfl, hl, hi⟩
  | some n =>
    have hn := hi n rfl
    have e := hg n hn
    simp only at e hl
    by_cases hc : n < c.length
    · have h1 : (place c.length (n : Int)).bind (c[·]?) = some c[n] := by
        rw [place, if_pos (Int.natCast_nonneg n), if_pos (Int.ofNat_lt.2 hc)]
        simp [hc]
      rw [h1] at e
      simp only [step, moved, pyStep, e, List.getElem?_eq_getElem hc]
      exact ⟨trivial, trivial, trivial, hl, fun m hm => some_lt (succ_lt hc hl) hm⟩
    · have h1 : (place c.length (n : Int)).bind (c[·]?) = none := by
        rw [place, if_pos (Int.natCast_nonneg n), if_neg (fun q => hc (Int.ofNat_lt.1 q))]
        rfl
      rw [h1] at e
      simp only [step, moved, pyStep, e, List.getElem?_eq_none (Nat.le_of_not_lt hc)]
      exact ⟨trivial, trivial, trivial, hl, fun m hm => by cases hm⟩

private theorem step_ok {α} (s : St α) (o : Op α) (h : Fits o) (hl : s.c.length < 2 ^ 64) (hi : ∀ n, s.it = some n → n < 2 ^ 64) :
    (step true s o).1 = (pyStep s.c s.it o).1 ∧ (step true s o).2.c = (pyStep s.c s.it o).2.1 ∧ (step true s o).2.it = (pyStep s.c s.it o).2.2 ∧
    (step true s o).2.c.length < 2 ^ 64 ∧ (∀ n, (step true s o).2.it = some n → n < 2 ^ 64) := by
  cases o with
  | len => exact ⟨rfl, rfl, rfl, hl, hi⟩
  | get i =>
    simp only [Fits] at h
    have e := get_ok s.c h
    simp only [step, pyStep, e]
    split <;> exact ⟨rfl, rfl, rfl, hl, hi⟩
  | set i v =>
    cases v with
    | none => exact ⟨rfl, rfl, rfl, hl, hi⟩
    | some v =>
      simp only [Fits] at h
      simp only [step, setItem, pyStep, index_ok h, place, if_pos h.1]
      by_cases hc : i < s.c.length
      · have : ¬ i.toNat ≥ s.c.length := by omega
        simp only [if_neg this, if_pos hc, Bool.true_eq_false, if_false]
        exact ⟨trivial, trivial, trivial, by simpa using hl, hi⟩
      · have : i.toNat ≥ s.c.length := by omega
        simp only [if_pos this, if_neg hc, Bool.true_eq_false, if_false]
        exact ⟨trivial, trivial, trivial, hl, hi⟩
  | assign l =>
    simp only [Fits] at h
    simp only [step, assign, pyStep, convert_eq, List.nil_append]
    by_cases ha : l.all Option.isSome = true
    · simp only [ha, if_true]
      exact ⟨trivial, trivial, trivial, Nat.lt_of_le_of_lt (List.length_filterMap_le _ _) h, hi⟩
    · simp only [ha]
      exact ⟨rfl, rfl, rfl, hl, hi⟩
  | iter => exact ⟨rfl, rfl, rfl, hl, fun n hn => by rw [← Option.some.inj hn]; exact Nat.two_pow_pos 64⟩
  | next => exact next_ok s (2 ^ 64) (fun n hn => get_ok s.c (cast_lt hn)) hl hi

/-- A sequence of numbers or strings answers every program as a list would: lengths, elements, assignments, conversions that fail,
and loops during which it changes. -/
theorem C85_sequence_partial {α} (c : List α) (ops : List (Op α)) (hc : c.length < 2 ^ 64) (h : ∀ o ∈ ops, Fits o) :
    run true ⟨c, none⟩ ops = pyRun c none ops := by
  have key : ∀ (ops : List (Op α)) (s : St α), s.c.length < 2 ^ 64 → (∀ n, s.it = some n → n < 2 ^ 64) → (∀ o ∈ ops, Fits o) →
      run true s ops = pyRun s.c s.it ops := by
    intro ops
    induction ops with
    | nil => intros; rfl
    | cons o os ih =>
      intro s hl hi h
      obtain ⟨h1, h2, h3, h4, h5⟩ := step_ok s o (h o (.head _)) hl hi
      rw [run, pyRun, ← h1, ← h2, ← h3]
      exact congrArg _ (ih _ h4 h5 (fun o ho => h o (.tail _ ho)))
  exact key ops ⟨c, none⟩ hc (fun n hn => by cases hn) h

example : (∀ o ∈ ([.iter, .next, .set 1 (some 7), .next, .assign [some 1, none], .get 1, .assign [some 5], .next, .len, .get 3] : List (Op Nat)), Fits o) ∧
    run true ⟨[4, 5, 6], none⟩ [.iter, .next, .set 1 (some 7), .next, .assign [some 1, none], .get 1, .assign [some 5], .next, .len, .get 3] =
    [.none, .val 4, .none, .val 7, .typeError, .val 7, .none, .stop, .num 1, .indexError] := by
  refine ⟨?_, by decide⟩
  intro o ho
  simp only [List.mem_cons, List.not_mem_nil, or_false] at ho
  rcases ho with rfl | rfl | rfl | rfl | rfl | rfl | rfl | rfl | rfl | rfl <;> simp [Fits]

/-- Members of the elements of a sequence can be assigned. -/
theorem C85_element {α} (c : List α) (i : Nat) (f : α → α) (h : i < c.length) (hc : c.length ≤ 2 ^ 64) :
    (modifySeq c i f).2 = c.modify i f := by
  rw [modifySeq, get_ok c (by omega)]
  have h1 : (place c.length (i : Int)).bind (c[·]?) = some c[i] := by
    rw [place, if_pos (by omega), if_pos (by omega)]
    simp [h]
  rw [h1]
  simp only [Int.toNat_natCast]
  apply List.ext_getElem? ; intro j
  rw [List.getElem?_set, List.getElem?_modify]
  by_cases hj : i = j
  · subst hj; simp [h]
  · simp [hj]

example : (modifySeq [(1, 2), (3, 4)] 1 (fun p => (p.1, 9))).2 = [(1, 2), (3, 9)] := by decide

/-- Elements that are not numbers or strings: assigning one has no effect, and no error is raised. -/
theorem C85_fails_assign {α} (c : List α) (i : Int) (v : α) (h : 0 ≤ i ∧ i < 2 ^ 64) : setItem false c i (some v) = (.none, c) := by
  simp [setItem, index_ok h]

example : run false ⟨[(1, 2)], none⟩ [.set 0 (some (3, 4)), .get 0, .set 5 (some (3, 4))] = [.none, .val (1, 2), .none] := by decide

/-- Negative indices do not count from the end. -/
theorem C85_fails_negative {α} (c : List α) (i : Int) (h : i < 0) : getItem c i = .overflow := by
  rw [getItem, index, if_neg (by omega)]

example : getItem [1, 2, 3] (-1) = .overflow ∧ (pyStep [1, 2, 3] none (.get (-1))).1 = .val 3 := by decide

/-! ### Arrays -/

private def off : List Nat → List Nat → Nat
  | _ :: ns, i :: is => i * prod ns + off ns is
  | _, _ => 0

private theorem off_lt : ∀ {ns is : List Nat}, Within ns is → off ns is < prod ns := by
  intro ns is h
  induction h with
  | nil => simp [off, prod]
  | @cons n ns i is hi _ ih =>
    rw [off, prod]
    calc i * prod ns + off ns is < i * prod ns + prod ns := by omega
      _ = (i + 1) * prod ns := by rw [Nat.succ_mul]
      _ ≤ n * prod ns := Nat.mul_le_mul_right _ hi

private theorem off_inj : ∀ {ns is : List Nat}, Within ns is → ∀ {js : List Nat}, Within ns js → off ns is = off ns js → is = js := by
  intro ns is h
  induction h with
  | nil => intro js h2 _; cases h2; rfl
  | @cons n ns i is hi hw ih =>
    intro js h2 e
    cases h2 with
    | @cons _ _ j js hj hw2 =>
      rw [off, off] at e
      have l1 := off_lt hw
      have l2 := off_lt hw2
      have e1 : i = j := by
        have := congrArg (· / prod ns) e
        simp only [Nat.mul_comm _ (prod ns)] at this
        rw [Nat.mul_add_div (by omega), Nat.mul_add_div (by omega), Nat.div_eq_of_lt l1, Nat.div_eq_of_lt l2] at this
        omega
      subst e1
      rw [ih hw2 (by omega)]

private theorem filterMap_get {β} (f : Nat → Option β) (n i : Nat) (hi : i < n) (h : ∀ j, j < n → (f j).isSome = true) :
    ((List.range n).filterMap f)[i]? = f i := by
  have : (List.range n).filterMap f = (List.range n).attach.map fun j => (f j.1).get (h j.1 (List.mem_range.1 j.2)) := by
    rw [← List.filterMap_eq_map]
    conv => lhs; rw [← List.attach_map_subtype_val (List.range n), List.filterMap_map]
    congr 1
    funext j
    simp
  rw [this]
  simp [hi]

private theorem nested_some {α} : ∀ (ns : List Nat) (l : List α), 0 < l.length → (nested ns l).isSome = true := by
  intro ns l h
  cases ns with
  | nil => cases l with
    | nil => simp at h
    | cons a l => rfl
  | cons n ns => rfl

private theorem nested_at {α} : ∀ {ns is : List Nat}, Within ns is → ∀ (l : List α), prod ns ≤ l.length →
    (nested ns l).bind (Nest.at · is) = l[off ns is]? := by
  intro ns is h
  induction h with
  | nil =>
    intro l hl
    cases l with
    | nil => simp [prod] at hl
    | cons a l => rfl
  | @cons n ns i is hi hw ih =>
    intro l hl
    have hp := off_lt hw
    have hrow : ∀ j, j < n → j * prod ns + prod ns ≤ l.length := fun j hj => by
      calc j * prod ns + prod ns = (j + 1) * prod ns := by rw [Nat.succ_mul]
        _ ≤ n * prod ns := Nat.mul_le_mul_right _ hj
        _ ≤ l.length := hl
    simp only [nested, Option.bind_some, Nest.at, off]
    rw [filterMap_get _ n i hi]
    · rw [ih (l.drop (i * prod ns)) (by rw [List.length_drop]; have := hrow i hi; omega), List.getElem?_drop]
    · intro j hj
      apply nested_some
      rw [List.length_drop]
      have := hrow j hj
      omega

private theorem index_nat {n : Nat} (h : n < 2 ^ 64) : index (Int.ofNat n) = some n := by
  rw [index, if_pos ⟨Int.natCast_nonneg n, by simpa using h⟩]; rfl

private theorem arrayGet_eq {α} (mem : List α) : ∀ {ns is : List Nat}, Within ns is → (∀ n ∈ ns, n ≤ 2 ^ 64) → ∀ (o : Nat) (a : α),
    mem[o + off ns is]? = some a → arrayGet mem o ns (is.map Int.ofNat) = .val a := by
  intro ns is h
  induction h with
  | nil => intro _ o a ha; simp only [off, Nat.add_zero] at ha; simp [arrayGet, ha]
  | @cons n ns i is hi hw ih =>
    intro hn o a ha
    have hb : i < 2 ^ 64 := Nat.lt_of_lt_of_le hi (hn n (.head _))
    rw [List.map_cons, arrayGet, index_nat hb]
    simp only [if_pos hi]
    exact ih (fun m hm => hn m (.tail _ hm)) _ a (by rw [← ha, off, Nat.add_assoc])

private theorem arraySet_eq {α} (mem : List α) (v : α) : ∀ {ns is : List Nat}, Within ns is → ns ≠ [] → (∀ n ∈ ns, n ≤ 2 ^ 64) → ∀ (o : Nat),
    arraySet mem o v ns (is.map Int.ofNat) = (.none, mem.set (o + off ns is) v) := by
  intro ns is h
  induction h with
  | nil => intro h; exact absurd rfl h
  | @cons n ns i is hi hw ih =>
    intro _ hn o
    have hb : i < 2 ^ 64 := Nat.lt_of_lt_of_le hi (hn n (.head _))
    cases hw with
    | nil => rw [List.map_cons, List.map_nil, arraySet, index_nat hb]; simp [hi, off, prod]
    | @cons m ms j js hj hw2 =>
      have := ih (by simp) (fun m hm => hn m (.tail _ hm)) (o + i * prod (m :: ms))
      rw [List.map_cons, List.map_cons, arraySet, index_nat hb]
      · simp only [if_pos hi]
        rw [List.map_cons] at this
        rw [this]
        simp only [off, Nat.add_assoc]
      · simp

/-- An array of any number of dimensions: indices within its bounds read the element a nested list would have there. -/
theorem C85_array_get_partial {α} (ns is : List Nat) (mem : List α) (hl : mem.length = prod ns) (hn : ∀ n ∈ ns, n ≤ 2 ^ 64)
    (h : Within ns is) : ∃ l a, nested ns mem = some l ∧ l.at is = some a ∧ arrayGet mem 0 ns (is.map Int.ofNat) = .val a := by
  have ho := off_lt h
  have e : mem[off ns is]? = some (mem[off ns is]'(by omega)) := List.getElem?_eq_getElem (by omega)
  have hs := nested_at h mem (by omega)
  rw [e] at hs
  cases hl2 : nested ns mem with
  | none => rw [hl2] at hs; cases hs
  | some l =>
    rw [hl2] at hs
    exact ⟨l, _, rfl, hs, arrayGet_eq mem h hn 0 _ (by rw [Nat.zero_add, e])⟩

example : Within [2, 3] [1, 2] ∧ arrayGet [1, 2, 3, 4, 5, 6] 0 [2, 3] [1, 2] = .val 6 := ⟨.cons (by decide) (.cons (by decide) .nil), by decide⟩

/-- An assignment with indices within the bounds changes that element, and no other. -/
theorem C85_array_set_partial {α} (ns is : List Nat) (mem : List α) (v : α) (hl : mem.length = prod ns) (h0 : ns ≠ []) (hn : ∀ n ∈ ns, n ≤ 2 ^ 64)
    (h : Within ns is) : ∃ mem', arraySet mem 0 v ns (is.map Int.ofNat) = (.none, mem') ∧ mem'.length = mem.length ∧
      ∀ js, Within ns js → arrayGet mem' 0 ns (js.map Int.ofNat) = if js = is then .val v else arrayGet mem 0 ns (js.map Int.ofNat) := by
  refine ⟨_, arraySet_eq mem v h h0 hn 0, List.length_set, ?_⟩
  intro js hj
  have ho := off_lt h
  have ho2 := off_lt hj
  by_cases e : js = is
  · subst e
    rw [if_pos rfl]
    exact arrayGet_eq _ h hn 0 v (by simp [hl, ho])
  · rw [if_neg e]
    have hne : off ns is ≠ off ns js := fun q => e (off_inj h hj q).symm
    rw [arrayGet_eq mem hj hn 0 (mem[off ns js]'(by omega)) (by simp [hl, ho2])]
    exact arrayGet_eq _ hj hn 0 _ (by rw [Nat.zero_add, Nat.zero_add, List.getElem?_set_ne hne]; simp [hl, ho2])

example : (arraySet [1, 2, 3, 4, 5, 6] 0 9 [2, 3] [1, 0]) = (.none, [1, 2, 3, 9, 5, 6]) := by decide

/-- A `for` statement over an array runs past its end: nothing raises IndexError. -/
theorem C85_fails_array_iter {α} (mem : List α) (hn : mem.length < 2 ^ 64) (fuel : Nat) (h : mem.length < fuel) :
    arrayIter mem mem.length fuel 0 = (mem, some .ub) := by
  have key : ∀ (k i fuel : Nat), k + i = mem.length → k < fuel → arrayIter mem mem.length fuel i = (mem.drop i, some .ub) := by
    intro k
    induction k with
    | zero =>
      intro i fuel e hf
      cases fuel with
      | zero => omega
      | succ fuel =>
        have e2 : i = mem.length := by omega
        subst e2
        have hx : index (Int.ofNat mem.length) = some mem.length := index_nat hn
        rw [arrayIter]
        simp only [arrayGet, Int.ofNat_eq_natCast] at hx ⊢
        simp [hx]
    | succ k ih =>
      intro i fuel e hf
      cases fuel with
      | zero => omega
      | succ fuel =>
        have hi : i < mem.length := by omega
        have hx : arrayGet mem 0 [mem.length] [(i : Int)] = .val mem[i] := by
          have := arrayGet_eq mem (ns := [mem.length]) (is := [i]) (.cons hi .nil) (by simp; omega) 0 mem[i] (by simp [off, prod, hi])
          simpa using this
        rw [arrayIter, hx]
        simp only [ih (i + 1) fuel (by omega) (by omega)]
        rw [← List.drop_eq_getElem_cons hi]
  exact key mem.length 0 fuel rfl h

example : arrayIter [1, 2, 3] 3 10 0 = ([1, 2, 3], some .ub) := by decide

/-- Any index past the end, in any dimension but with those before it in bounds, is undefined behaviour. -/
theorem C85_fails_array_index {α} (mem : List α) (n : Nat) (i : Nat) (h : n ≤ i) (hi : i < 2 ^ 64) (v : α) :
    arrayGet mem 0 [n] [(i : Int)] = .ub ∧ (arraySet mem 0 v [n] [(i : Int)]).1 = .ub := by
  have hx : index (i : Int) = some i := index_nat hi
  simp [arrayGet, arraySet, hx, Nat.not_lt.2 h]

example : arrayGet [1, 2, 3] 0 [3] [3] = .ub := by decide

/-- Assigning a member of an element of an array has no effect, and no error is raised. -/
theorem C85_fails_array_member {α} (mem : List α) (i : Nat) (f : α → α) (h : i < mem.length) (hn : mem.length < 2 ^ 64) :
    modifyArr mem mem.length (i : Int) f = (.none, mem) := by
  have := arrayGet_eq mem (ns := [mem.length]) (is := [i]) (.cons h .nil) (by simp; omega) 0 mem[i] (by simp [off, prod, h])
  rw [modifyArr]
  simp only [List.map_cons, List.map_nil, Int.ofNat_eq_natCast] at this
  rw [this]

example : modifyArr [(1, 2), (3, 4)] 2 1 (fun p => (p.1, 9)) = (.none, [(1, 2), (3, 4)]) ∧
    modifySeq [(1, 2), (3, 4)] 1 (fun p => (p.1, 9)) = (.none, [(1, 2), (3, 9)]) := by decide

/-! ### Maps -/

section
variable {K V : Type} {lt : K → K → Bool}

/-- An element of a map is what was last assigned to its key. -/
theorem C85_map_get [DecidableEq K] (hlt : StrictOrd lt) (m : List (K × V)) (k k' : K) (v : V) :
    getMap lt (mstep lt (m, none) (.set k v)).2.1 k' = if k' = k then .val v else getMap lt m k' := by
  simp only [mstep, getMap, mfind_mput hlt k v m k']
  by_cases e : k' = k
  · simp [e]
  · simp [e]

example : getMap (fun a b : Nat => decide (a < b)) (mput (fun a b : Nat => decide (a < b)) 2 7 [(1, 5), (2, 6)]) 2 = .val 7 := by decide

/-- A key that is not there raises RuntimeError, where a dictionary raises KeyError. -/
theorem C85_fails_key (m : List (K × V)) (k : K) (h : mfind lt k m = none) : getMap lt m k = .runtimeError ∧ getMap lt m k ≠ .keyError := by
  simp [getMap, h]

example : getMap (fun a b : Nat => decide (a < b)) [(1, 5)] 2 = .runtimeError := by decide

private theorem mput_keys (k : K) (v : V) (x : K) : ∀ m : List (K × V), x ∈ m.map (·.1) → x ∈ (mput lt k v m).map (·.1) := by
  intro m
  induction m with
  | nil => intro h; cases h
  | cons e r ih =>
    obtain ⟨k', v'⟩ := e
    intro h
    rw [mput]
    split
    · exact .tail _ h
    · split
      · cases h with
        | head => exact .head _
        | tail _ h => exact .tail _ (ih h)
      · exact h

private theorem after_none (k : K) : ∀ m : List (K × V), after lt k m = none → ∀ x ∈ m.map (·.1), lt k x = false := by
  intro m
  induction m with
  | nil => intro _ x h; cases h
  | cons e r ih =>
    obtain ⟨k', v'⟩ := e
    intro h x hx
    rw [after] at h
    split at h
    · cases h
    · rename_i hk
      cases hx with
      | head => simpa using hk
      | tail _ hx => exact ih h x hx

private theorem after_some (hlt : StrictOrd lt) (k k' : K) : ∀ m : List (K × V), Sorted lt m → after lt k m = some k' →
    k' ∈ m.map (·.1) ∧ lt k k' = true ∧ ∀ x ∈ m.map (·.1), lt k x = true → lt x k' = false := by
  intro m
  induction m with
  | nil => intro _ h; cases h
  | cons e r ih =>
    obtain ⟨k2, v2⟩ := e
    intro hs h
    rw [after] at h
    split at h
    · rename_i hk
      cases h
      refine ⟨.head _, hk, ?_⟩
      intro x hx _
      cases hx with
      | head => exact hlt.irrefl _
      | tail _ hx =>
        obtain ⟨e, he, rfl⟩ := List.mem_map.1 hx
        exact hlt.asymm (hs.1 e he)
    · rename_i hk
      obtain ⟨h1, h2, h3⟩ := ih hs.2 h
      refine ⟨.tail _ h1, h2, ?_⟩
      intro x hx hkx
      cases hx with
      | head => exact absurd hkx hk
      | tail _ hx => exact h3 x hx hkx

private theorem mrun_end (ops : List (MOp K V)) : ∀ m : List (K × V), yields (mrun lt (m, none) ops) = [] := by
  induction ops with
  | nil => intro m; rfl
  | cons o os ih =>
    intro m
    cases o with
    | set k v => simp only [mrun, mstep, yields, ih]
    | next => simp only [mrun, mstep, yields, ih]

private theorem mrun_some (hlt : StrictOrd lt) (ops : List (MOp K V)) : ∀ (m : List (K × V)) (k : K), Sorted lt m → k ∈ m.map (·.1) →
    (yields (mrun lt (m, some k) ops)).Pairwise (fun a b => lt a b = true) ∧
    (∀ y ∈ yields (mrun lt (m, some k) ops), lt y k = false) ∧
    (∀ y ∈ yields (mrun lt (m, some k) ops), y ∈ m.map (·.1) ∨ ∃ v, MOp.set y v ∈ ops) ∧
    (.stop ∈ mrun lt (m, some k) ops → ∀ x ∈ m.map (·.1), lt x k = false → x ∈ yields (mrun lt (m, some k) ops)) := by
  induction ops with
  | nil => intro m k _ _; simp [mrun, yields]
  | cons o os ih =>
    intro m k hs hk
    cases o with
    | set k1 v =>
      obtain ⟨h1, h2, h3, h4⟩ := ih (mput lt k1 v m) k (sorted_mput hlt k1 v m hs) (mput_keys k1 v k m hk)
      simp only [mrun, mstep, yields]
      refine ⟨h1, h2, ?_, ?_⟩
      · intro y hy
        rcases h3 y hy with h | ⟨w, h⟩
        · obtain ⟨e, he, rfl⟩ := List.mem_map.1 h
          rcases mem_mput_key k1 v m e he with h | h
          · exact .inr ⟨v, by rw [h]; exact .head _⟩
          · exact .inl h
        · exact .inr ⟨w, .tail _ h⟩
      · intro hst x hx hxk
        refine h4 ?_ x (mput_keys k1 v x m hx) hxk
        cases hst with
        | tail _ h => exact h
    | next =>
      simp only [mrun, mstep, yields]
      cases ha : after lt k m with
      | none =>
        rw [mrun_end]
        refine ⟨by simp, ?_, ?_, ?_⟩
        · intro y hy
          simp only [List.mem_singleton] at hy
          subst hy; exact hlt.irrefl _
        · intro y hy
          simp only [List.mem_singleton] at hy
          subst hy; exact .inl hk
        · intro _ x hx hxk
          have := after_none k m ha x hx
          simp [hlt.tri x k hxk this]
      | some k' =>
        obtain ⟨a1, a2, a3⟩ := after_some hlt k k' m hs ha
        obtain ⟨h1, h2, h3, h4⟩ := ih m k' hs a1
        have hbig : ∀ y ∈ yields (mrun lt (m, some k') os), lt k y = true := by
          intro y hy
          have := h2 y hy
          cases hky : lt k' y with
          | true => exact hlt.trans _ _ _ a2 hky
          | false => rw [hlt.tri _ _ this hky]; exact a2
        refine ⟨List.pairwise_cons.2 ⟨hbig, h1⟩, ?_, ?_, ?_⟩
        · intro y hy
          cases hy with
          | head => exact hlt.irrefl _
          | tail _ hy => exact hlt.asymm (hbig y hy)
        · intro y hy
          cases hy with
          | head => exact .inl hk
          | tail _ hy =>
            rcases h3 y hy with h | ⟨w, h⟩
            · exact .inl h
            · exact .inr ⟨w, .tail _ h⟩
        · intro hst x hx hxk
          cases hkx : lt k x with
          | false => rw [hlt.tri _ _ hxk hkx]; exact .head _
          | true =>
            refine .tail _ (h4 ?_ x hx (a3 x hx hkx))
            cases hst with
            | tail _ h => exact h

/-- A `for` statement over a map, with assignments to elements in between: the keys come in order, none twice, each of them one
of the map or one assigned to; and once the statement ends, every key of the map has come. -/
theorem C85_map_iter (hlt : StrictOrd lt) (m : List (K × V)) (hm : Sorted lt m) (ops : List (MOp K V)) :
    (yields (mrun lt (mbegin m) ops)).Pairwise (fun a b => lt a b = true) ∧
    (∀ y ∈ yields (mrun lt (mbegin m) ops), y ∈ m.map (·.1) ∨ ∃ v, MOp.set y v ∈ ops) ∧
    (.stop ∈ mrun lt (mbegin m) ops → ∀ x ∈ m.map (·.1), x ∈ yields (mrun lt (mbegin m) ops)) := by
  cases m with
  | nil =>
    have : mbegin ([] : List (K × V)) = ([], none) := rfl
    rw [this, mrun_end]
    simp
  | cons e r =>
    obtain ⟨k, v⟩ := e
    have : mbegin ((k, v) :: r) = ((k, v) :: r, some k) := rfl
    rw [this]
    obtain ⟨h1, _, h3, h4⟩ := mrun_some hlt ops ((k, v) :: r) k hm (.head _)
    refine ⟨h1, h3, fun hst x hx => h4 hst x hx ?_⟩
    cases hx with
    | head => exact hlt.irrefl _
    | tail _ hx =>
      obtain ⟨e, he, rfl⟩ := List.mem_map.1 hx
      exact hlt.asymm (hm.1 e he)

example : mrun (fun a b : Nat => decide (a < b)) (mbegin [(1, 5), (3, 6)]) [.next, .set 2 7, .set 4 8, .next, .next, .set 9 9, .next] =
    [.val 1, .none, .none, .val 3, .val 4, .none, .stop] := by decide

end

/-- A `for` statement over a map nothing is assigned to: its keys, then the end. -/
theorem C85_map_for {K V : Type} {lt : K → K → Bool} (hlt : StrictOrd lt) (m : List (K × V)) (hm : Sorted lt m) :
    mrun lt (mbegin m) (List.replicate (m.length + 1) .next) = m.map (fun e => .val e.1) ++ [.stop] := by
  have skip : ∀ (p r : List (K × V)) (k : K), Sorted lt (p ++ r) → (∀ e ∈ p, lt k e.1 = false) → (∀ e ∈ r, lt k e.1 = true) →
      after lt k (p ++ r) = r.head?.map (·.1) := by
    intro p
    induction p with
    | nil =>
      intro r k _ _ hr
      cases r with
      | nil => rfl
      | cons e r => simp [after, hr e (.head _)]
    | cons e p ih =>
      intro r k hs hp hr
      have h1 := hp e (.head _)
      obtain ⟨k', v'⟩ := e
      rw [List.cons_append, after]
      simp only at h1
      rw [h1]
      exact ih r k hs.2 (fun e he => hp e (.tail _ he)) hr
  have hsplit : ∀ (p r : List (K × V)), Sorted lt (p ++ r) → Sorted lt r ∧ ∀ e ∈ p, ∀ e2 ∈ r, lt e.1 e2.1 = true := by
    intro p
    induction p with
    | nil => intro r h; exact ⟨h, by simp⟩
    | cons e p ih =>
      intro r h
      obtain ⟨k', v'⟩ := e
      obtain ⟨h1, h2⟩ := ih r h.2
      refine ⟨h1, ?_⟩
      intro e he e2 he2
      cases he with
      | head => exact h.1 e2 (List.mem_append.2 (.inr he2))
      | tail _ he => exact h2 e he e2 he2
  have key : ∀ (r p : List (K × V)), Sorted lt (p ++ r) →
      mrun lt (p ++ r, r.head?.map (·.1)) (List.replicate (r.length + 1) .next) = r.map (fun e => .val e.1) ++ [.stop] := by
    intro r
    induction r with
    | nil => intro p _; rfl
    | cons e r ih =>
      intro p hs
      obtain ⟨k, v⟩ := e
      obtain ⟨h1, h2⟩ := hsplit p _ hs
      rw [List.length_cons, List.replicate_succ, List.head?_cons, Option.map_some, mrun]
      simp only [mstep]
      have e1 : p ++ (k, v) :: r = (p ++ [(k, v)]) ++ r := by simp
      have e2 : after lt k (p ++ (k, v) :: r) = r.head?.map (·.1) := by
        rw [e1]
        apply skip _ _ _ (e1 ▸ hs)
        · intro e he
          rcases List.mem_append.1 he with he | he
          · exact hlt.asymm (h2 e he (k, v) (.head _))
          · simp only [List.mem_singleton] at he; rw [he]; exact hlt.irrefl _
        · intro e he; exact h1.1 e he
      rw [e2, e1]
      have := ih (p ++ [(k, v)]) (e1 ▸ hs)
      rw [this]
      rfl
  exact key m [] hm

example : mrun (fun a b : Nat => decide (a < b)) (mbegin [(1, 5), (3, 6)]) (List.replicate 3 .next) = [.val 1, .val 3, .stop] := by decide

end Verif.PyCont
