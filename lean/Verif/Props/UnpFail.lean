import Verif.UnpFail
/-
C131: what is left when packing or unpacking fails.
-/
namespace Verif.UnpFail
open Verif (leB leV)

/-! ### Specification -/

/-- What a value consists of, in order: numbers, texts and lengths as bytes, and raw pointers. -/
def C131.items : (t : Ty) → t.V → List (Option Bytes)
  | .prim _, v => [some v]
  | .str, v => [some (leB 8 v.length), some v]
  | .unit, _ => []
  | .pair a b, v => items a v.1 ++ items b v.2
  | .tup a b, v => items a v.1 ++ items b v.2
  | .seq t, v => some (leB 8 v.length) :: v.flatMap (items t)
  | .opt _, none => [some [0]]
  | .opt t, some v => some [1] :: items t v
  | .rawp, _ => [none]

/-- The bytes in front of the first raw pointer. -/
def C131.front : List (Option Bytes) → Bytes
  | some b :: l => b ++ front l
  | _ => []

/-- Fundamental values have the size of their type, texts and sequences a length that can be written. -/
def C131.Sized : (t : Ty) → t.V → Prop
  | .prim n, v => v.length = n
  | .str, v => v.length + 1 < W64
  | .unit, _ => True
  | .pair a b, v => Sized a v.1 ∧ Sized b v.2
  | .tup a b, v => Sized a v.1 ∧ Sized b v.2
  | .seq t, v => v.length < W64 ∧ ∀ x ∈ v, Sized t x
  | .opt _, none => True
  | .opt t, some v => Sized t v
  | .rawp, _ => True

/-- How many bytes those of the parts take that are complete among the first `k` bytes. -/
def C131.fit : Nat → List (Option Bytes) → Nat
  | k, some b :: l => if b.length ≤ k then b.length + fit (k - b.length) l else 0
  | _, _ => 0

/-- Number of bytes of a value. -/
def C131.size (t : Ty) (v : t.V) : Nat := (C131.front (C131.items t v)).length

/-- The elements complete within `k` bytes. -/
def C131.whole {α : Type} (sz : α → Nat) : Nat → List α → List α
  | _, [] => []
  | k, v :: l => if sz v ≤ k then v :: whole sz (k - sz v) l else []

/-- The object when only `k` bytes of the new value can be had: members complete are new, the others old, and of a tuple only the first is new; sequences keep the elements that are
complete, and pointers lead to an object made anew. -/
def C131.cut (D : (t : Ty) → t.V) : (t : Ty) → (old new : t.V) → Nat → t.V
  | .prim n, old, new, k => if n ≤ k then new else old
  | .str, old, new, k => if 8 + new.length ≤ k then new else old
  | .unit, old, _, _ => old
  | .pair a b, old, new, k =>
    if C131.size a new.1 ≤ k then (new.1, cut D b old.2 new.2 (k - C131.size a new.1)) else (cut D a old.1 new.1 k, old.2)
  | .tup a _, old, new, k => if C131.size a new.1 ≤ k then (new.1, old.2) else (cut D a old.1 new.1 k, old.2)
  | .seq t, old, new, k => if 8 ≤ k then C131.whole (C131.size t) (k - 8) new else old
  | .opt _, old, none, k => if 1 ≤ k then none else old
  | .opt t, old, some v, k => if 1 ≤ k then some (cut D t (D t) v (k - 1)) else old
  | .rawp, old, _, _ => old

open C131

/-! ### Packing -/

private theorem front_none {l : List (Option Bytes)} : ∀ m, none ∈ l → front (l ++ m) = front l := by
  induction l with
  | nil => simp
  | cons a l ih =>
    intro m h
    cases a with
    | none => rfl
    | some b => simp only [List.mem_cons, reduceCtorEq, false_or] at h; simp [front, ih m h]

private theorem front_some {l : List (Option Bytes)} : ∀ m, none ∉ l → front (l ++ m) = front l ++ front m := by
  induction l with
  | nil => simp [front]
  | cons a l ih =>
    intro m h
    cases a with
    | none => simp at h
    | some b => simp only [List.mem_cons, reduceCtorEq, false_or] at h; simp [front, ih m h]

private theorem packL_eq {α : Type} {f : α → Bytes → Bool × Bytes} {g : α → List (Option Bytes)} (l : List α)
    (h : ∀ v ∈ l, ∀ w, f v w = (decide (none ∉ g v), w ++ front (g v))) : ∀ w, packL f l w = (decide (none ∉ l.flatMap g), w ++ front (l.flatMap g)) := by
  induction l with
  | nil => simp [packL, front]
  | cons v l ih =>
    intro w
    simp only [packL, h v (by simp)]
    have ih := ih fun x hx => h x (by simp [hx])
    by_cases hn : none ∈ g v
    · simp [hn, front_none _ hn]
    · simp only [hn, not_false_eq_true, decide_true, ih, List.flatMap_cons, front_some _ hn, List.append_assoc, List.mem_append, false_or]

private theorem pack_eq : ∀ (t : Ty) (v : t.V) (w : Bytes), pack t v w = (decide (none ∉ items t v), w ++ front (items t v))
  | .prim _, v, w => by simp [pack, items, front]
  | .str, v, w => by simp [pack, items, front]
  | .unit, _, w => by simp [pack, items, front]
  | .pair a b, v, w => by
    simp only [pack, pack_eq a, items]
    by_cases hn : none ∈ items a v.1
    · simp [hn, front_none _ hn]
    · simp only [hn, not_false_eq_true, decide_true, pack_eq b, front_some _ hn, List.append_assoc, List.mem_append, false_or]
  | .tup a b, v, w => by
    simp only [pack, pack_eq a, items]
    by_cases hn : none ∈ items a v.1
    · simp [hn, front_none _ hn]
    · simp only [hn, not_false_eq_true, decide_true, pack_eq b, front_some _ hn, List.append_assoc, List.mem_append, false_or]
  | .seq t, v, w => by
    simp only [pack, items, front]
    rw [packL_eq (g := items t) v fun x _ w => pack_eq t x w]
    simp
  | .opt _, none, w => by simp [pack, items, front]
  | .opt t, some v, w => by simp [pack, items, front, pack_eq t]
  | .rawp, _, w => by simp [pack, items, front]

/-- C131: packing is refused exactly for what holds a raw pointer, null or not. -/
theorem C131_refused (t : Ty) (v : t.V) (w : Bytes) : (pack t v w).1 = false ↔ none ∈ items t v := by
  rw [pack_eq]
  simp

/-- C131, partial: what has been in the buffer is still there when packing is refused; it is followed by what comes before the pointer. -/
theorem C131_pack_partial (t : Ty) (v : t.V) (w : Bytes) : (pack t v w).2 = w ++ front (items t v) := by
  rw [pack_eq]

/-- C131: a refused packing leaves the buffer as it was exactly if nothing comes before the pointer. -/
theorem C131_pack_same (t : Ty) (v : t.V) (w : Bytes) : (pack t v w).2 = w ↔ front (items t v) = [] := by
  rw [pack_eq]
  simp

/-! ### Unpacking -/

private theorem pop_append {n : Nat} {b : Bytes} (r : Bytes) (h : b.length = n) : pop n (b ++ r) = some (b, r) := by
  subst h
  simp [pop]

private theorem pop_short {n : Nat} {r : Bytes} (h : r.length < n) : pop n r = none := by simp [pop, h]

private theorem loop_all {α : Type} {f : Bytes → Out α} {e : α → Bytes} (l : List α) (h : ∀ v ∈ l, ∀ r, f (e v ++ r) = ⟨.ok, v, r⟩) :
    ∀ acc r, loop f l.length acc (l.flatMap e ++ r) = ⟨.ok, acc ++ l, r⟩ := by
  induction l with
  | nil => simp [loop]
  | cons v l ih =>
    intro acc r
    simp only [List.length_cons, loop, List.flatMap_cons, List.append_assoc, h v (by simp)]
    rw [ih fun x hx => h x (by simp [hx])]
    simp

private theorem front_flatMap {α : Type} {g : α → List (Option Bytes)} (l : List α) (h : none ∉ l.flatMap g) :
    front (l.flatMap g) = l.flatMap fun v => front (g v) := by
  induction l with
  | nil => rfl
  | cons v l ih =>
    simp only [List.flatMap_cons, List.mem_append, not_or] at h
    simp [front_some _ h.1, ih h.2]

private theorem read_all (D : (t : Ty) → t.V) : ∀ (t : Ty) (old v : t.V) (r : Bytes), Sized t v → none ∉ items t v →
    unpack D t old (front (items t v) ++ r) = ⟨.ok, v, r⟩
  | .prim n, old, v, r, hs, _ => by
    simp only [items, front, List.append_nil, unpack]
    rw [pop_append r hs]
  | .str, old, v, r, hs, _ => by
    simp only [Sized] at hs
    simp only [items, front, List.append_nil, unpack, List.append_assoc]
    rw [pop_append _ (leB_length 8 _)]
    simp only
    rw [leV_leB8 (by omega), if_neg (by omega), pop_append r rfl]
  | .unit, old, v, r, _, _ => by simp [items, front, unpack]
  | .pair a b, old, v, r, hs, hn => by
    simp only [items, List.mem_append, not_or] at hn
    simp only [items, front_some _ hn.1, unpack, List.append_assoc]
    rw [read_all D a _ _ _ hs.1 hn.1]
    simp only
    rw [read_all D b _ _ _ hs.2 hn.2]
  | .tup a b, old, v, r, hs, hn => by
    simp only [items, List.mem_append, not_or] at hn
    simp only [items, front_some _ hn.1, unpack, List.append_assoc]
    rw [read_all D a _ _ _ hs.1 hn.1]
    simp only
    rw [read_all D b _ _ _ hs.2 hn.2]
  | .seq t, old, v, r, hs, hn => by
    simp only [items, List.mem_cons, reduceCtorEq, false_or] at hn
    simp only [items, front, unpack, List.append_assoc]
    rw [pop_append _ (leB_length 8 _)]
    simp only
    rw [leV_leB8 hs.1, front_flatMap _ hn, loop_all v fun x hx r => read_all D t _ x r (hs.2 x hx) fun hx' => hn (List.mem_flatMap.2 ⟨x, hx, hx'⟩)]
    rfl
  | .opt _, old, none, r, _, _ => by simp [items, front, unpack, pop]
  | .opt t, old, some v, r, hs, hn => by
    simp only [items, List.mem_cons, reduceCtorEq, false_or] at hn
    simp only [items, front, unpack, List.append_assoc]
    rw [pop_append (n := 1) (b := [1]) _ rfl]
    simp only
    rw [if_neg (by decide), if_pos trivial, read_all D t _ v r hs hn]
  | .rawp, _, _, _, _, hn => by simp [items] at hn

private theorem fit_short {l : List (Option Bytes)} : ∀ (k : Nat) (m), none ∉ l → k < (front l).length → fit k (l ++ m) = fit k l := by
  induction l with
  | nil => simp [front]
  | cons a l ih =>
    intro k m h hk
    cases a with
    | none => simp at h
    | some b =>
      simp only [List.mem_cons, reduceCtorEq, false_or] at h
      simp only [front, List.length_append] at hk
      simp only [List.cons_append, fit]
      split
      · rw [ih _ _ h (by omega)]
      · rfl

private theorem fit_long {l : List (Option Bytes)} : ∀ (k : Nat) (m), none ∉ l → (front l).length ≤ k →
    fit k (l ++ m) = (front l).length + fit (k - (front l).length) m := by
  induction l with
  | nil => simp [front]
  | cons a l ih =>
    intro k m h hk
    cases a with
    | none => simp at h
    | some b =>
      simp only [List.mem_cons, reduceCtorEq, false_or] at h
      simp only [front, List.length_append] at hk
      simp only [List.cons_append, fit, front, List.length_append]
      rw [if_pos (by omega), ih _ _ h (by omega)]
      rw [Nat.sub_sub, Nat.add_assoc]

private theorem take_long {b : Bytes} (c : Bytes) {k : Nat} (h : b.length ≤ k) : (b ++ c).take k = b ++ c.take (k - b.length) := by
  rw [List.take_append, List.take_of_length_le h]

private theorem take_short {b : Bytes} (c : Bytes) {k : Nat} (h : k < b.length) : (b ++ c).take k = b.take k := by
  rw [List.take_append_of_le_length (by omega)]

private theorem drop_long {b : Bytes} (c : Bytes) (n : Nat) : (b ++ c).drop (b.length + n) = c.drop n := by
  rw [List.drop_append]
  simp [show b.length + n - b.length = n by omega]

private theorem loop_cut {α : Type} {f : Bytes → Out α} {g : α → List (Option Bytes)} (l : List α) (hn : none ∉ l.flatMap g)
    (ha : ∀ v ∈ l, ∀ r, f (front (g v) ++ r) = ⟨.ok, v, r⟩)
    (hb : ∀ v ∈ l, ∀ k, k < (front (g v)).length → (f ((front (g v)).take k)).st = .throw ∧
      (f ((front (g v)).take k)).rest = ((front (g v)).take k).drop (fit k (g v))) :
    ∀ acc k, k < (front (l.flatMap g)).length → loop f l.length acc ((front (l.flatMap g)).take k) =
      ⟨.throw, acc ++ whole (fun v => (front (g v)).length) k l, ((front (l.flatMap g)).take k).drop (fit k (l.flatMap g))⟩ := by
  induction l with
  | nil => simp [front]
  | cons v l ih =>
    intro acc k hk
    simp only [List.flatMap_cons, List.mem_append, not_or] at hn
    simp only [List.flatMap_cons, front_some _ hn.1, List.length_append] at hk ⊢
    simp only [List.length_cons, loop, whole]
    by_cases hl : (front (g v)).length ≤ k
    · rw [take_long _ hl, ha v (by simp), if_pos hl, fit_long _ _ hn.1 hl, drop_long]
      simp only
      rw [ih hn.2 (fun x hx => ha x (by simp [hx])) (fun x hx => hb x (by simp [hx])) _ _ (by omega)]
      simp
    · have hl : k < (front (g v)).length := by omega
      have := hb v (by simp) k hl
      rw [take_short _ hl, if_neg (by omega), fit_short _ _ hn.1 hl]
      generalize f ((front (g v)).take k) = o at this ⊢
      obtain ⟨s, x, r⟩ := o
      obtain ⟨rfl, rfl⟩ := this
      simp

private theorem read_cut (D : (t : Ty) → t.V) : ∀ (t : Ty) (old v : t.V) (k : Nat), Sized t v → none ∉ items t v → k < (front (items t v)).length →
    unpack D t old ((front (items t v)).take k) = ⟨.throw, cut D t old v k, ((front (items t v)).take k).drop (fit k (items t v))⟩
  | .prim n, old, v, k, hs, _, hk => by
    simp only [Sized] at hs
    simp only [items, front, List.append_nil] at hk
    simp only [items, front, List.append_nil, unpack, cut, fit]
    rw [pop_short (by simp; omega), if_neg (by omega), if_neg (by omega)]
    rfl
  | .str, old, v, k, hs, _, hk => by
    simp only [Sized] at hs
    simp only [items, front, List.append_nil, List.length_append, leB_length] at hk
    simp only [items, front, List.append_nil, unpack, cut, fit, leB_length]
    by_cases h8 : 8 ≤ k
    · rw [take_long _ (by rw [leB_length]; exact h8), pop_append _ (leB_length 8 _)]
      simp only [leB_length]
      rw [leV_leB8 (by omega), if_neg (by omega), pop_short (by simp; omega), if_neg (by omega), if_pos h8, if_neg (by omega)]
      have := drop_long (b := leB 8 v.length) (v.take (k - 8)) 0
      rw [leB_length] at this
      rw [this]
      rfl
    · rw [pop_short (by simp; omega), if_neg (by omega), if_neg (by omega)]
      rfl
  | .unit, _, _, k, _, _, hk => by simp [items, front] at hk
  | .pair a b, old, v, k, hs, hn, hk => by
    simp only [items, List.mem_append, not_or] at hn
    simp only [items, front_some _ hn.1, List.length_append] at hk
    simp only [items, front_some _ hn.1, unpack, cut]
    by_cases hl : (front (items a v.1)).length ≤ k
    · rw [take_long _ hl, read_all D a _ _ _ hs.1 hn.1]
      simp only
      rw [read_cut D b _ _ _ hs.2 hn.2 (by omega), if_pos (show size a v.1 ≤ k from hl), fit_long _ _ hn.1 hl, drop_long]
      rfl
    · have hl : k < (front (items a v.1)).length := by omega
      rw [take_short _ hl, read_cut D a _ _ _ hs.1 hn.1 hl, if_neg (show ¬ size a v.1 ≤ k from Nat.not_le.2 hl), fit_short _ _ hn.1 hl]
  | .tup a b, old, v, k, hs, hn, hk => by
    simp only [items, List.mem_append, not_or] at hn
    simp only [items, front_some _ hn.1, List.length_append] at hk
    simp only [items, front_some _ hn.1, unpack, cut]
    by_cases hl : (front (items a v.1)).length ≤ k
    · rw [take_long _ hl, read_all D a _ _ _ hs.1 hn.1]
      simp only
      rw [read_cut D b _ _ _ hs.2 hn.2 (by omega), if_pos (show size a v.1 ≤ k from hl), fit_long _ _ hn.1 hl, drop_long]
    · have hl : k < (front (items a v.1)).length := by omega
      rw [take_short _ hl, read_cut D a _ _ _ hs.1 hn.1 hl, if_neg (show ¬ size a v.1 ≤ k from Nat.not_le.2 hl), fit_short _ _ hn.1 hl]
  | .seq t, old, v, k, hs, hn, hk => by
    simp only [items, List.mem_cons, reduceCtorEq, false_or] at hn
    simp only [items, front, List.length_append, leB_length] at hk
    simp only [items, front, unpack, cut, fit, leB_length]
    by_cases h8 : 8 ≤ k
    · rw [take_long _ (by rw [leB_length]; exact h8), pop_append _ (leB_length 8 _)]
      simp only [leB_length]
      have hx : ∀ x ∈ v, none ∉ items t x := fun x hx hx' => hn (List.mem_flatMap.2 ⟨x, hx, hx'⟩)
      rw [leV_leB8 hs.1, loop_cut v hn (fun x h r => read_all D t _ x r (hs.2 x h) (hx x h)) (fun x h k hk => by
        rw [read_cut D t _ x k (hs.2 x h) (hx x h) hk]; exact ⟨rfl, rfl⟩) _ _ (by omega), if_pos h8, if_pos h8]
      have := drop_long (b := leB 8 v.length) ((front (v.flatMap (items t))).take (k - 8)) (fit (k - 8) (v.flatMap (items t)))
      rw [leB_length] at this
      rw [this]
      rfl
    · rw [pop_short (by simp; omega), if_neg (by omega), if_neg (by omega)]
      rfl
  | .opt t, old, none, k, _, _, hk => by
    simp only [items, front, List.append_nil, List.length_singleton] at hk
    obtain rfl : k = 0 := by omega
    rfl
  | .opt t, old, some v, k, hs, hn, hk => by
    simp only [items, List.mem_cons, reduceCtorEq, false_or] at hn
    simp only [items, front, List.length_append, List.length_singleton] at hk
    simp only [items, front, unpack, cut, fit, List.length_singleton]
    by_cases h1 : 1 ≤ k
    · rw [take_long _ (by simpa using h1), pop_append (n := 1) (b := [1]) _ rfl]
      simp only [List.length_singleton]
      rw [if_neg (by decide), if_pos trivial, read_cut D t _ v _ hs hn (by omega), if_pos h1, if_pos h1]
      have := drop_long (b := [1]) ((front (items t v)).take (k - 1)) (fit (k - 1) (items t v))
      rw [List.length_singleton] at this
      rw [this]
    · obtain rfl : k = 0 := by omega
      rfl
  | .rawp, _, _, _, _, hn, _ => by simp [items] at hn

/-- C131, partial: when the data end before the object does, there is an exception; the members complete in the data are new, the others are as they
were, and sequences and objects pointed to have what is complete of them; reading goes on behind the last part that is complete. -/
theorem C131_unpack_partial (D : (t : Ty) → t.V) (t : Ty) (old v : t.V) (e : Bytes) (k : Nat) (hs : Sized t v) (hp : pack t v [] = (true, e))
    (hk : k < e.length) : unpack D t old (e.take k) = ⟨.throw, cut D t old v k, (e.take k).drop (fit k (items t v))⟩ := by
  rw [pack_eq] at hp
  simp only [List.nil_append, Prod.mk.injEq, decide_eq_true_eq] at hp
  obtain ⟨h, rfl⟩ := hp
  exact read_cut D t old v k hs h hk

/-- C131: unpacking again, all of it, to the object left by a failure gives the object packed. -/
theorem C131_again (D : (t : Ty) → t.V) (t : Ty) (old v : t.V) (e r : Bytes) (k : Nat) (hs : Sized t v) (hp : pack t v [] = (true, e)) :
    unpack D t (unpack D t old (e.take k)).val (e ++ r) = ⟨.ok, v, r⟩ := by
  rw [pack_eq] at hp
  simp only [List.nil_append, Prod.mk.injEq, decide_eq_true_eq] at hp
  obtain ⟨h, rfl⟩ := hp
  exact read_all D t _ v r hs h

/-! ### The code changes both -/

/-- C131 fails: an object with a number and a raw pointer is refused, but the number is in the buffer, and is what is read in place of what is
packed next. -/
theorem C131_fails_pack (D : (t : Ty) → t.V) (n : Nat) (x y : Bytes) (p : Option Nat) (old : Bytes) (hx : x.length = n) (hn : 0 < n) :
    (pack (.pair (.prim n) .rawp) (x, p) []).1 = false ∧ (pack (.pair (.prim n) .rawp) (x, p) []).2 ≠ [] ∧
    (unpack D (.prim n) old (pack (.prim n) y (pack (.pair (.prim n) .rawp) (x, p) []).2).2).val = x := by
  refine ⟨rfl, ?_, ?_⟩
  · simp only [pack, List.nil_append, ne_eq]
    rintro rfl
    simp at hx
    omega
  · simp only [pack, List.nil_append, unpack]
    rw [pop_append y hx]

example : (pack (.pair (.prim 4) .rawp) ([1, 0, 0, 0], none) []) = (false, [1, 0, 0, 0]) := rfl

/-- C131 fails: of two members the first is new and the second old if the data end between them, so that the object is neither. -/
theorem C131_fails_unpack (D : (t : Ty) → t.V) (n m : Nat) (x y : Bytes × Bytes) (k : Nat)
    (hy : y.1.length = n ∧ y.2.length = m) (h1 : x.1 ≠ y.1) (h2 : x.2 ≠ y.2) (hk : n ≤ k ∧ k < n + m) :
    (unpack D (.pair (.prim n) (.prim m)) x ((y.1 ++ y.2).take k)).st = .throw ∧
    (unpack D (.pair (.prim n) (.prim m)) x ((y.1 ++ y.2).take k)).val = (y.1, x.2) ∧ (y.1, x.2) ≠ x ∧ (y.1, x.2) ≠ y := by
  have h := C131_unpack_partial D (.pair (.prim n) (.prim m)) x y (y.1 ++ y.2) k ⟨hy.1, hy.2⟩ rfl (by simp [hy]; omega)
  rw [h]
  refine ⟨rfl, ?_, ?_, ?_⟩
  · simp only [cut, size, items, front, List.append_nil, hy.1]
    rw [if_pos hk.1, if_neg (by omega)]
  · rintro e
    exact h1 (by rw [← e])
  · rintro e
    exact h2 (by rw [← e])

example (D : (t : Ty) → t.V) : (unpack D (.pair (.prim 1) (.prim 1)) ([1], [2]) (([3] ++ [4] : Bytes).take 1)).val = ([3], [2]) :=
  (C131_fails_unpack D 1 1 ([1], [2]) ([3], [4]) 1 ⟨rfl, rfl⟩ (by decide) (by decide) ⟨by decide, by decide⟩).2.1

/-- C131 fails: once its length has been read, a sequence has lost all of its elements; what a pointer has pointed to is let go likewise. -/
theorem C131_fails_lost (D : (t : Ty) → t.V) (t : Ty) (old : List t.V) (o : Option t.V) (n : Nat) (hn : n < W64) (h0 : 0 < n)
    (ht : ∀ x, (unpack D t x []).st = .throw) :
    (unpack D (.seq t) old (leB 8 n)).st = .throw ∧ (unpack D (.seq t) old (leB 8 n)).val = [] ∧
    (unpack D (.opt t) o [1]).st = .throw ∧ (unpack D (.opt t) o [1]).val = some (unpack D t (D t) []).val := by
  have h8 : pop 8 (leB 8 n) = some (leB 8 n, []) := by
    have := pop_append (b := leB 8 n) [] (leB_length 8 n)
    rwa [List.append_nil] at this
  have hl : loop (unpack D t (D t)) n [] [] = ⟨.throw, [], (unpack D t (D t) []).rest⟩ := by
    have := ht (D t)
    match n, h0 with
    | n + 1, _ =>
      simp only [loop]
      generalize unpack D t (D t) [] = o at this
      obtain ⟨s, x, r⟩ := o
      obtain rfl : s = .throw := this
      rfl
  refine ⟨?_, ?_, ?_, ?_⟩
  · simp only [unpack, h8]; rw [leV_leB8 hn, hl]
  · simp only [unpack, h8]; rw [leV_leB8 hn, hl]
  · exact ht (D t)
  · rfl

example (D : (t : Ty) → t.V) : (unpack D (.seq (.prim 4)) [[1, 0, 0, 0]] (leB 8 1)).val = [] :=
  (C131_fails_lost D (.prim 4) [[1, 0, 0, 0]] none 1 (by decide) (by decide) (fun x => by simp [unpack, pop])).2.1

/-! ### Raw pointers are not unpacked -/

/-- A raw pointer is a member of the object itself. -/
def C131.Direct : Ty → Prop
  | .pair a b => Direct a ∨ Direct b
  | .tup a b => Direct a ∨ Direct b
  | .rawp => True
  | _ => False

/-- C131: no data make unpacking of an object with a raw pointer end without an exception. -/
theorem C131_pointer (D : (t : Ty) → t.V) (t : Ty) (h : Direct t) (old : t.V) (r : Bytes) : (unpack D t old r).st ≠ .ok := by
  induction t generalizing r with
  | pair a b iha ihb =>
    simp only [unpack]
    rcases h with h | h
    · have := iha h old.1 r
      generalize unpack D a old.1 r = o at this
      obtain ⟨s, x, r'⟩ := o
      cases s <;> simp_all
    · generalize unpack D a old.1 r = o
      obtain ⟨s, x, r'⟩ := o
      cases s
      · exact ihb h old.2 r'
      · simp
      · simp
  | tup a b iha ihb =>
    simp only [unpack]
    rcases h with h | h
    · have := iha h old.1 r
      generalize unpack D a old.1 r = o at this
      obtain ⟨s, x, r'⟩ := o
      cases s <;> simp_all
    · generalize unpack D a old.1 r = o
      obtain ⟨s, x, r'⟩ := o
      cases s
      · have := ihb h old.2 r'
        dsimp only
        generalize unpack D b old.2 r' = o at this
        obtain ⟨s, y, r2⟩ := o
        cases s <;> simp_all
      · simp
      · simp
  | rawp => simp [unpack]
  | _ => simp [Direct] at h

/-- A class with a number, a text, a sequence of texts and a pointer to a number, of which 34 bytes have been received; the object is read again. -/
example (D : (t : Ty) → t.V) : ∃ e, pack (.pair (.prim 2) (.pair .str (.pair (.seq .str) (.opt (.prim 2))))) ([1, 0], [65], [[66], [67]], some [2, 0]) [] = (true, e) ∧
    (unpack D (.pair (.prim 2) (.pair .str (.pair (.seq .str) (.opt (.prim 2))))) ([9, 9], [90], [[91]], none) (e.take 34)).val =
      ([1, 0], [65], [[66]], none) := by
  refine ⟨_, rfl, ?_⟩
  rw [C131_unpack_partial D _ _ ([1, 0], [65], [[66], [67]], some [2, 0]) _ 34 ?_ rfl (by decide)]
  · rfl
  · refine ⟨rfl, (by decide : 1 + 1 < W64), ⟨by decide, fun x hx => ?_⟩, rfl⟩
    simp only [List.mem_cons, List.not_mem_nil, or_false] at hx
    rcases hx with rfl | rfl <;> exact (by decide : 1 + 1 < W64)

/-! ### Tuples -/

/-- C131: a tuple of three of which the last is not complete has only its first member replaced, though the second has been read and is not read
again. -/
theorem C131_fails_tuple (D : (t : Ty) → t.V) (n m l : Nat) (x y : Bytes × Bytes × Bytes) (k : Nat)
    (hy : y.1.length = n ∧ y.2.1.length = m ∧ y.2.2.length = l) (hk : n + m ≤ k ∧ k < n + m + l) :
    unpack D (.tup (.prim n) (.tup (.prim m) (.prim l))) x ((y.1 ++ y.2.1 ++ y.2.2).take k) =
      ⟨.throw, (y.1, x.2), y.2.2.take (k - n - m)⟩ := by
  obtain ⟨a, b, c⟩ := y
  obtain ⟨h1, h2, h3⟩ := hy
  dsimp only at h1 h2 h3
  have h := C131_unpack_partial D (.tup (.prim n) (.tup (.prim m) (.prim l))) x (a, b, c) (a ++ b ++ c) k ⟨h1, h2, h3⟩ rfl (by simp; omega)
  rw [h]
  have e : (a ++ b ++ c).take k = a ++ (b ++ c.take (k - n - m)) := by
    rw [List.append_assoc, take_long _ (by omega), take_long _ (by omega), h1, h2]
  simp only [cut, size, items, front, List.append_nil, fit, List.cons_append, List.nil_append]
  rw [if_pos (by omega), if_pos (by omega), if_pos (by omega), if_neg (by omega), e, drop_long]
  have := drop_long (b := b) (c.take (k - n - m)) 0
  rw [this]
  rfl

example (D : (t : Ty) → t.V) : unpack D (.tup (.prim 1) (.tup (.prim 1) (.prim 2))) ([1], [2], [3, 3]) [7, 8, 9] = ⟨.throw, ([7], [2], [3, 3]), [9]⟩ :=
  C131_fails_tuple D 1 1 2 ([1], [2], [3, 3]) ([7], [8], [9, 9]) 3 ⟨rfl, rfl, rfl⟩ (by decide)

/-- C131 fails for data that packing does not write: a string said to have two to the power of 64 less one characters, and a smart pointer
whose first byte is neither 0 nor 1, are no exception; there is no defined behaviour. -/
theorem C131_fails_hostile (D : (t : Ty) → t.V) (t : Ty) (s : Bytes) (o : Option t.V) (b : UInt8) (r : Bytes) (h0 : b ≠ 0) (h1 : b ≠ 1) :
    (unpack D .str s (List.replicate 8 255 ++ r)).st = .ub ∧ (unpack D (.opt t) o (b :: r)).st = .ub ∧
    (∀ n, n + 1 < W64 → r.length < n → unpack D .str s (leB 8 n ++ r) = ⟨.throw, s, r⟩) := by
  refine ⟨?_, ?_, fun n hn hr => ?_⟩
  · have h8 : pop 8 (List.replicate 8 255 ++ r) = some (List.replicate 8 255, r) := pop_append r (by simp)
    have : leV (List.replicate 8 255) + 1 = W64 := by decide
    simp only [unpack, h8, this, if_true]
  · have e : pop 1 (b :: r) = some ([b], r) := pop_append (b := [b]) r rfl
    simp [unpack, e, h0, h1]
  · have h8 : pop 8 (leB 8 n ++ r) = some (leB 8 n, r) := pop_append r (leB_length 8 n)
    have hl : leV (leB 8 n) = n := leV_leB8 (by omega)
    have : pop n r = none := by simp [pop, hr]
    simp only [unpack, h8, hl, this, if_neg (show ¬ n + 1 = W64 by omega)]
/-- C131: a raw pointer is refused with an exception, before anything is taken from the data or changed. -/
theorem C131_raw (D : (t : Ty) → t.V) (a : Ty) (old : (Ty.pair .rawp a).V) (r : Bytes) :
    unpack D .rawp old.1 r = ⟨.throw, old.1, r⟩ ∧ unpack D (.pair .rawp a) old r = ⟨.throw, old, r⟩ := ⟨rfl, rfl⟩


end Verif.UnpFail
