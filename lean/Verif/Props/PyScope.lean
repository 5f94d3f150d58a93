import Verif.PyScope
/-
C86: objects and functions given to Python under dotted names.
-/
namespace Verif.PyScope

namespace C86

/-- An attribute of what has been looked up so far. -/
def attrOf (attr : Nat → Str → Option Ent) : Option Ent → Str → Option Ent
  | some (.sc i), n => attr i n
  | _, _ => none

/-- `module.a.b.c` in Python. -/
def resolve (attr : Nat → Str → Option Ent) (path : List Str) : Option Ent := path.foldl (attrOf attr) (some (.sc 0))

/-- Something added: `path` and `name` are joined with dots. -/
structure Entry where
  path : List Str
  name : Str
  fn : Bool
  v : Nat
  deriving DecidableEq, Repr

def Entry.full (e : Entry) : List Str := e.path ++ [e.name]

def Entry.item (e : Entry) : Item := ⟨e.fn, e.path.flatMap (· ++ [46]) ++ e.name, e.v⟩

/-- No part of the name contains a dot. -/
def Entry.Plain (e : Entry) : Prop := ∀ n ∈ e.full, 46 ∉ n

/-- How many parts two names begin with in common. -/
def common : List Str → List Str → Nat
  | a :: as, b :: bs => if a = b then common as bs + 1 else 0
  | _, _ => 0

/-- What belongs to one scope is added without a break: whatever comes between two entries shares as much with the first of them
as the second does. -/
def Grouped : List Entry → Prop
  | [] => True
  | x :: es => es.Pairwise (fun y z => common x.path z.path ≤ common x.path y.path) ∧ Grouped es

/-- No name is that of another entry or of a scope. -/
def Apart (es : List Entry) : Prop := es.Pairwise fun x y => ¬ x.full <+: y.full ∧ ¬ y.full <+: x.full

/-- From one entry to the next at most one scope is left. -/
def Steps : List Entry → Prop
  | x :: y :: es => x.path.length ≤ common x.path y.path + 1 ∧ Steps (y :: es)
  | _ => True

end C86
open C86

private theorem common_ge : ∀ (q x z : List Str), q <+: x → q <+: z → q.length ≤ common x z := by
  intro q
  induction q with
  | nil => intros; exact Nat.zero_le _
  | cons c q ih =>
    rintro x z ⟨t, rfl⟩ ⟨u, rfl⟩
    have := ih (q ++ t) (q ++ u) (List.prefix_append _ _) (List.prefix_append _ _)
    simp [common]; exact this

private theorem prefix_of_common : ∀ (q x y : List Str), q <+: x → q.length ≤ common x y → q <+: y := by
  intro q
  induction q with
  | nil => intro x y _ _; exact List.nil_prefix
  | cons c q ih =>
    rintro x y ⟨t, rfl⟩ h
    cases y with
    | nil => simp [common] at h
    | cons d y =>
      rw [List.cons_append, common] at h
      split at h
      · rename_i e
        subst e
        exact List.prefix_cons_inj _ |>.2 (ih (q ++ t) y (List.prefix_append _ _) (by simpa using h))
      · simp at h

private theorem grouped_at : ∀ {es : List Entry}, Grouped es → ∀ (a b c d : List Entry) (x y z : Entry), es = a ++ x :: b ++ y :: c ++ z :: d →
    ∀ q, q <+: x.path → q <+: z.path → q <+: y.path := by
  intro es h a
  induction a generalizing es with
  | nil =>
    rintro b c d x y z rfl q h1 h2
    have h : (b ++ y :: c ++ z :: d).Pairwise (fun y z => common x.path z.path ≤ common x.path y.path) := by simpa using h.1
    rw [List.append_assoc, List.pairwise_append] at h
    have h := (List.pairwise_cons.1 h.2.1).1 z (by simp)
    exact prefix_of_common q _ _ h1 (Nat.le_trans (common_ge q _ _ h1 h2) h)
  | cons w a ih =>
    rintro b c d x y z rfl q h1 h2
    exact ih h.2 b c d x y z (by simp) q h1 h2

private theorem apart_at {es : List Entry} (h : Apart es) (a b : List Entry) (x y : Entry) (e : es = a ++ x :: b) (hy : y ∈ a ∨ y ∈ b) :
    ¬ x.full <+: y.full := by
  subst e
  rw [Apart, List.pairwise_append] at h
  rcases hy with hy | hy
  · exact (h.2.2 y hy x (.head _)).2
  · exact ((List.pairwise_cons.1 h.2.1).1 y hy).1

private theorem steps_at : ∀ {es : List Entry}, Steps es → ∀ (a b : List Entry) (x y : Entry), es = a ++ x :: y :: b →
    x.path.length ≤ common x.path y.path + 1 := by
  intro es h a
  induction a generalizing es with
  | nil => rintro b x y rfl; exact h.1
  | cons w a ih =>
    rintro b x y rfl
    refine ih ?_ b x y rfl
    cases a with
    | nil => exact h.2
    | cons w2 a => exact h.2

/-! ### Names -/

private theorem cut_plain : ∀ n : Str, 46 ∉ n → cut n = ([], n) := by
  intro n
  induction n with
  | nil => intro _; rfl
  | cons c r ih =>
    intro h
    rw [cut, ih (fun q => h (.tail _ q))]
    have : c ≠ 46 := fun e => h (e ▸ .head _)
    simp [this]

private theorem cut_dot : ∀ (n r : Str), 46 ∉ n → cut (n ++ 46 :: r) = (n :: (cut r).1, (cut r).2) := by
  intro n r
  induction n with
  | nil => intro _; rw [List.nil_append, cut]; simp
  | cons c n ih =>
    intro h
    have : c ≠ 46 := fun e => h (e ▸ .head _)
    rw [List.cons_append, cut, ih (fun q => h (.tail _ q))]
    simp [this]

private theorem cut_item (e : Entry) (h : e.Plain) : cut e.item.d = (e.path, e.name) := by
  have key : ∀ (p : List Str) (n : Str), (∀ m ∈ p, 46 ∉ m) → 46 ∉ n → cut (p.flatMap (· ++ [46]) ++ n) = (p, n) := by
    intro p n
    induction p with
    | nil => intro _ hn; exact cut_plain n hn
    | cons m p ih =>
      intro hp hn
      have := ih (fun m hm => hp m (.tail _ hm)) hn
      simp only [List.flatMap_cons, List.append_assoc, List.cons_append, List.nil_append]
      rw [cut_dot _ _ (hp m (.head _)), this]
  exact key e.path e.name (fun m hm => h m (List.mem_append.2 (.inl hm))) (h _ (List.mem_append.2 (.inr (.head _))))

/-! ### Looking up -/

theorem C86.resolve_snoc (attr : Nat → Str → Option Ent) (p : List Str) (n : Str) : resolve attr (p ++ [n]) = attrOf attr (resolve attr p) n := by
  simp [resolve, List.foldl_append]

theorem C86.snoc_ind {P : List Str → Prop} (h0 : P []) (h1 : ∀ p n, P p → P (p ++ [n])) : ∀ p, P p := by
  intro p
  have : ∀ q : List Str, P q.reverse := by
    intro q
    induction q with
    | nil => exact h0
    | cons n q ih => rw [List.reverse_cons]; exact h1 _ _ ih
  simpa using this p.reverse

/-- No two ways to one scope. -/
def C86.Uniq (attr : Nat → Str → Option Ent) : Prop := ∀ q q' i, resolve attr q = some (.sc i) → resolve attr q' = some (.sc i) → q = q'

theorem C86.prefix_snoc {p q : List Str} {a : Str} (h : p <+: q ++ [a]) : p <+: q ∨ p = q ++ [a] := by
  obtain ⟨t, ht⟩ := h
  rcases t.eq_nil_or_concat with rfl | ⟨t', b, rfl⟩
  · exact .inr (by simpa using ht)
  · left
    rw [List.concat_eq_append, ← List.append_assoc] at ht
    exact ⟨t', (List.append_inj' ht rfl).1⟩

theorem C86.set_frame {attr : Nat → Str → Option Ent} (hu : Uniq attr) {p : List Str} {id : Nat} (hp : resolve attr p = some (.sc id))
    (n : Str) (e : Ent) : ∀ q, ¬ (p ++ [n]) <+: q →
    resolve (fun i m => if i = id ∧ m = n then some e else attr i m) q = resolve attr q := by
  refine snoc_ind ?_ ?_
  · intro _; rfl
  · intro q a ih hq
    rw [resolve_snoc, resolve_snoc, ih (fun h => hq (h.trans (List.prefix_append _ _)))]
    cases hr : resolve attr q with
    | none => rfl
    | some r =>
      cases r with
      | obj v => rfl
      | sc i =>
        simp only [attrOf]
        rw [if_neg]
        rintro ⟨rfl, rfl⟩
        exact hq (by rw [hu q p i hr hp]; exact List.prefix_refl _)

theorem C86.set_at {attr : Nat → Str → Option Ent} (hu : Uniq attr) {p : List Str} {id : Nat} (hp : resolve attr p = some (.sc id))
    (n : Str) (e : Ent) : resolve (fun i m => if i = id ∧ m = n then some e else attr i m) (p ++ [n]) = some e := by
  rw [resolve_snoc, set_frame hu hp n e p, hp]
  · simp [attrOf]
  · intro h; have := h.length_le; simp only [List.length_append, List.length_cons, List.length_nil] at this; omega

/-- The state between additions: `ps` are the paths used so far, `P` names the scopes that are open. -/
private structure Inv (s : St) (done : List Entry) (ps : List (List Str)) (P : List Str) : Prop where
  uniq : Uniq s.attr
  lt : ∀ (q : List Str) (i : Nat), resolve s.attr q = some (.sc i) → i < s.next
  empty : ∀ (i : Nat) (a : Str), s.next ≤ i → s.attr i a = none
  sub : ∀ (q : List Str) (i : Nat), resolve s.attr q = some (.sc i) → q = [] ∨ ∃ p ∈ ps, q <+: p
  len : s.stack.length = P.length
  names : ∀ (k : Nat) (e : Scope), s.stack[k]? = some e → P[k]? = some e.name
  ids : ∀ (k : Nat) (e : Scope), s.stack[k]? = some e → resolve s.attr (P.take (k + 1)) = some (.sc e.id)
  prevs : ∀ (k : Nat) (e : Scope), s.stack[k]? = some e → resolve s.attr (P.take k) = some (.sc e.prev)
  cur : resolve s.attr P = some (.sc s.cur)
  have_ : ∀ d ∈ done, resolve s.attr d.full = some (.obj d.v)

private theorem inv_init : Inv St.init [] [] [] where
  uniq := by
    have : ∀ q : List Str, q ≠ [] → resolve St.init.attr q = none := by
      refine snoc_ind (fun h => absurd rfl h) ?_
      intro p n _ _
      rw [resolve_snoc]
      cases resolve St.init.attr p with
      | none => rfl
      | some e => cases e <;> rfl
    intro q q' i h h'
    by_cases hq : q = []
    · by_cases hq' : q' = []
      · rw [hq, hq']
      · rw [this _ hq'] at h'; cases h'
    · rw [this _ hq] at h; cases h
  lt := by
    refine snoc_ind ?_ ?_
    · intro i h; cases h; decide
    · intro p n _ i h
      rw [resolve_snoc] at h
      cases hr : resolve St.init.attr p with
      | none => rw [hr] at h; cases h
      | some e => rw [hr] at h; cases e <;> cases h
  empty := fun _ _ _ => rfl
  sub := by
    refine snoc_ind ?_ ?_
    · intro i _; exact .inl rfl
    · intro p n _ i h
      rw [resolve_snoc] at h
      cases hr : resolve St.init.attr p with
      | none => rw [hr] at h; cases h
      | some e => rw [hr] at h; cases e <;> cases h
  len := rfl
  names := by intro k e h; cases h
  ids := by intro k e h; cases h
  prevs := by intro k e h; cases h
  cur := rfl
  have_ := by intro d h; cases h

/-- What resolves below an attribute just set to something without attributes. -/
theorem C86.set_below {attr : Nat → Str → Option Ent} (hu : Uniq attr) {p : List Str} {id : Nat} (hp : resolve attr p = some (.sc id))
    (n : Str) (e : Ent) (he : ∀ i, e = .sc i → i ≠ id ∧ ∀ a, attr i a = none) :
    ∀ q, (p ++ [n]) <+: q → q ≠ p ++ [n] → resolve (fun i m => if i = id ∧ m = n then some e else attr i m) q = none := by
  refine snoc_ind ?_ ?_
  · intro h; have := h.length_le; simp only [List.length_append, List.length_cons, List.length_nil] at this; omega
  · intro q a ih hq hne
    rcases prefix_snoc hq with h | h
    · rw [resolve_snoc]
      by_cases hqe : q = p ++ [n]
      · rw [hqe, set_at hu hp n e]
        cases e with
        | obj v => rfl
        | sc i =>
          obtain ⟨h1, h2⟩ := he i rfl
          simp [attrOf, h1, h2]
      · rw [ih h hqe]; rfl
    · exact absurd h.symm hne

private theorem inv_set {s : St} {done : List Entry} {ps : List (List Str)} {P : List Str} (h : Inv s done ps P) (e : Entry) (hP : e.path = P) (hPs : P ∈ ps)
    (ha : ∀ d ∈ done, ¬ e.full <+: d.full) :
    Inv (s.setAttr s.cur e.name (.obj e.v)) (done ++ [e]) ps P := by
  have fr := fun q hq => set_frame h.uniq h.cur e.name (.obj e.v) q hq
  have fa := set_at h.uniq h.cur e.name (.obj e.v)
  have fb := set_below h.uniq h.cur e.name (.obj e.v) (fun i hi => by cases hi)
  have old : ∀ q i, resolve (s.setAttr s.cur e.name (.obj e.v)).attr q = some (.sc i) → resolve s.attr q = some (.sc i) := by
    intro q i hq
    by_cases hp : (P ++ [e.name]) <+: q
    · by_cases hqe : q = P ++ [e.name]
      · rw [hqe] at hq; rw [St.setAttr] at hq; simp only at hq; rw [fa] at hq; cases hq
      · rw [St.setAttr] at hq; simp only at hq; rw [fb q hp hqe] at hq; cases hq
    · rw [← hq]; exact (fr q hp).symm
  have short : ∀ q, q.length ≤ P.length → resolve (s.setAttr s.cur e.name (.obj e.v)).attr q = resolve s.attr q := by
    intro q hq
    refine fr q (fun hp => ?_)
    have := hp.length_le
    simp at this
    omega
  exact {
    uniq := fun q q' i h1 h2 => h.uniq q q' i (old q i h1) (old q' i h2)
    lt := fun q i hq => h.lt q i (old q i hq)
    empty := by
      intro i a hi
      have hc := h.lt P s.cur h.cur
      simp only [St.setAttr] at hi ⊢
      rw [if_neg (by rintro ⟨rfl, _⟩; omega)]
      exact h.empty i a hi
    sub := fun q i hq => h.sub q i (old q i hq)
    len := h.len
    names := h.names
    ids := fun k x hk => by rw [short _ (List.length_take_le' _ _)]; exact h.ids k x hk
    prevs := fun k x hk => by rw [short _ (List.length_take_le' _ _)]; exact h.prevs k x hk
    cur := by rw [short _ (Nat.le_refl _)]; exact h.cur
    have_ := by
      intro d hd
      rcases List.mem_append.1 hd with hd | hd
      · rw [← h.have_ d hd]
        refine fr _ (fun hp => ha d hd ?_)
        rw [Entry.full, hP]; exact hp
      · simp only [List.mem_singleton] at hd
        subst hd
        rw [Entry.full, hP]
        exact fa }

private theorem inv_open {s : St} {done : List Entry} {ps : List (List Str)} {P : List Str} (h : Inv s done ps P) (n : Str) (hPs : ∃ p ∈ ps, (P ++ [n]) <+: p)
    (ha : ∀ d ∈ done, ¬ (P ++ [n]) <+: d.full) :
    Inv (s.openScope n) done ps (P ++ [n]) := by
  have hc := h.lt P s.cur h.cur
  have hnx : ∀ i, Ent.sc s.next = .sc i → i ≠ s.cur ∧ ∀ a, s.attr i a = none := by
    intro i hi; cases hi; exact ⟨by omega, fun a => h.empty _ a (Nat.le_refl _)⟩
  have fr := fun q hq => set_frame h.uniq h.cur n (.sc s.next) q hq
  have fa := set_at h.uniq h.cur n (.sc s.next)
  have fb := set_below h.uniq h.cur n (.sc s.next) hnx
  have old : ∀ q i, resolve (s.openScope n).attr q = some (.sc i) → resolve s.attr q = some (.sc i) ∨ q = P ++ [n] ∧ i = s.next := by
    intro q i hq
    rw [St.openScope, St.setAttr] at hq
    simp only at hq
    by_cases hp : (P ++ [n]) <+: q
    · by_cases hqe : q = P ++ [n]
      · rw [hqe, fa] at hq; cases hq; exact .inr ⟨hqe, rfl⟩
      · rw [fb q hp hqe] at hq; cases hq
    · left; rw [← hq]; exact (fr q hp).symm
  have short : ∀ q, q.length ≤ P.length → resolve (s.openScope n).attr q = resolve s.attr q := by
    intro q hq
    refine fr q (fun hp => ?_)
    have := hp.length_le
    simp at this
    omega
  have stk : ∀ k e, (s.openScope n).stack[k]? = some e → s.stack[k]? = some e ∧ k < P.length ∨ k = P.length ∧ e = ⟨n, s.next, s.cur⟩ := by
    intro k e hk
    simp only [St.openScope, St.setAttr] at hk
    by_cases hkl : k < s.stack.length
    · rw [List.getElem?_append_left hkl] at hk
      exact .inl ⟨hk, h.len ▸ hkl⟩
    · rw [List.getElem?_append_right (by omega)] at hk
      have hlt : k - s.stack.length < 1 := by
        have := (List.getElem?_eq_some_iff.1 hk).1
        simpa using this
      have e0 : k - s.stack.length = 0 := by omega
      rw [e0] at hk
      cases hk
      exact .inr ⟨by have := h.len; omega, rfl⟩
  exact {
    uniq := by
      intro q q' i h1 h2
      rcases old q i h1 with a | ⟨a, a'⟩ <;> rcases old q' i h2 with b | ⟨b, b'⟩
      · exact h.uniq q q' i a b
      · have := h.lt q i a; omega
      · have := h.lt q' i b; omega
      · rw [a, b]
    lt := by
      intro q i hq
      show i < s.next + 1
      rcases old q i hq with a | ⟨_, a⟩
      · have := h.lt q i a; omega
      · omega
    empty := by
      intro i a hi
      have hi' : s.next + 1 ≤ i := hi
      simp only [St.openScope, St.setAttr]
      rw [if_neg (by rintro ⟨rfl, _⟩; omega)]
      exact h.empty i a (by omega)
    sub := by
      intro q i hq
      rcases old q i hq with a | ⟨a, _⟩
      · exact h.sub q i a
      · obtain ⟨p, hp, hpp⟩ := hPs
        exact .inr ⟨p, hp, a ▸ hpp⟩
    len := by simp [St.openScope, St.setAttr, h.len]
    names := by
      intro k e hk
      rcases stk k e hk with ⟨a, b⟩ | ⟨a, b⟩
      · rw [List.getElem?_append_left b]; exact h.names k e a
      · rw [a, b]; simp
    ids := by
      intro k e hk
      rcases stk k e hk with ⟨a, b⟩ | ⟨a, b⟩
      · rw [List.take_append_of_le_length (by omega), short _ (List.length_take_le' _ _)]; exact h.ids k e a
      · rw [a, b, List.take_of_length_le (by simp)]; exact fa
    prevs := by
      intro k e hk
      rcases stk k e hk with ⟨a, b⟩ | ⟨a, b⟩
      · rw [List.take_append_of_le_length (by omega), short _ (List.length_take_le' _ _)]; exact h.prevs k e a
      · rw [a, b, List.take_append_of_le_length (by omega), List.take_length, short _ (Nat.le_refl _)]; exact h.cur
    cur := fa
    have_ := by
      intro d hd
      rw [← h.have_ d hd]
      exact fr _ (ha d hd) }

private theorem destroyed_last (c : Nat) (l : List Scope) (e : Scope) : destroyed c (l ++ [e]) = e.prev := by
  induction l generalizing c with
  | nil => rfl
  | cons x l ih => exact ih _

private theorem inv_close {s : St} {done : List Entry} {ps : List (List Str)} {P : List Str} (h : Inv s done ps P) (lifo : Bool) (level : Nat) (hl : level ≤ P.length)
    (hc : lifo = true ∨ P.length ≤ level + 1) : Inv (s.close lifo level) done ps (P.take level) := by
  have stk : ∀ k e, (s.close lifo level).stack[k]? = some e → s.stack[k]? = some e ∧ k < level := by
    intro k e hk
    simp only [St.close, List.getElem?_take] at hk
    split at hk
    · exact ⟨hk, by assumption⟩
    · cases hk
  exact {
    uniq := h.uniq
    lt := h.lt
    empty := h.empty
    sub := h.sub
    len := by simp [St.close, h.len]
    names := by
      intro k e hk
      obtain ⟨a, b⟩ := stk k e hk
      rw [List.getElem?_take, if_pos b]; exact h.names k e a
    ids := by
      intro k e hk
      obtain ⟨a, b⟩ := stk k e hk
      rw [List.take_take, Nat.min_eq_left (by omega)]; exact h.ids k e a
    prevs := by
      intro k e hk
      obtain ⟨a, b⟩ := stk k e hk
      rw [List.take_take, Nat.min_eq_left (by omega)]; exact h.prevs k e a
    cur := by
      show resolve s.attr (P.take level) = some (.sc (destroyed s.cur (if lifo then (s.stack.drop level).reverse else s.stack.drop level)))
      by_cases he : level = P.length
      · have : s.stack.drop level = [] := List.drop_eq_nil_iff.2 (by rw [h.len]; omega)
        rw [this, he, List.take_length]
        simpa [destroyed] using h.cur
      · have hlt : level < s.stack.length := by rw [h.len]; omega
        have hd : s.stack.drop level = s.stack[level] :: s.stack.drop (level + 1) := List.drop_eq_getElem_cons hlt
        have hp := h.prevs level s.stack[level] (List.getElem?_eq_getElem hlt)
        rcases hc with hc | hc
        · rw [hc, hd, if_pos rfl, List.reverse_cons, destroyed_last]; exact hp
        · have h2 : s.stack.drop (level + 1) = [] := List.drop_eq_nil_iff.2 (by rw [h.len]; omega)
          rw [hd, h2]
          cases lifo <;> exact hp
    have_ := h.have_ }

/-! ### `checkScope` -/

private theorem check_open (lifo : Bool) : ∀ (cs : List Str) {s : St} {done : List Entry} {ps : List (List Str)} {P : List Str}, Inv s done ps P → (∃ p ∈ ps, (P ++ cs) <+: p) →
    (∀ d ∈ done, ∀ q, P <+: q → q ≠ P → q <+: P ++ cs → ¬ q <+: d.full) →
    Inv (check lifo cs P.length s) done ps (P ++ cs) := by
  intro cs
  induction cs with
  | nil =>
    intro s done ps P h _ _
    have := inv_close h lifo P.length (Nat.le_refl _) (.inr (by omega))
    rw [List.take_length] at this
    simpa [check] using this
  | cons c cs ih =>
    intro s done ps P h hp ha
    have e1 : P ++ c :: cs = (P ++ [c]) ++ cs := by simp
    have hn : s.stack[P.length]? = none := List.getElem?_eq_none (by rw [h.len]; omega)
    rw [check, hn]
    simp only
    rw [if_pos h.len.symm]
    have ho := inv_open h c
      (by obtain ⟨p, hp, hpp⟩ := hp; exact ⟨p, hp, (e1 ▸ List.prefix_append _ _ : P ++ [c] <+: P ++ c :: cs).trans hpp⟩)
      (fun d hd => ha d hd _ (List.prefix_append _ _) (by simp) (e1 ▸ List.prefix_append _ _))
    have := ih ho (e1 ▸ hp) (by
      intro d hd q h1 h2 h3
      refine ha d hd q ((List.prefix_append _ _).trans h1) ?_ (e1 ▸ h3)
      intro e
      have := h1.length_le
      rw [e] at this
      simp at this
      omega)
    rw [e1]
    simpa using this

private theorem common_self_append (Q a b : List Str) : common (Q ++ a) (Q ++ b) = Q.length + common a b := by
  induction Q with
  | nil => simp
  | cons x Q ih => simp [common, ih]; omega

private theorem check_inv (lifo : Bool) : ∀ (cs : List Str) {s : St} {done : List Entry} {ps : List (List Str)} (Q P' : List Str), Inv s done ps (Q ++ P') → (∃ p ∈ ps, (Q ++ cs) <+: p) →
    (lifo = true ∨ (Q ++ P').length ≤ common (Q ++ P') (Q ++ cs) + 1) →
    (∀ d ∈ done, ∀ q, q <+: d.full → q <+: Q ++ cs → q <+: Q ++ P') →
    Inv (check lifo cs Q.length s) done ps (Q ++ cs) := by
  intro cs
  induction cs with
  | nil =>
    intro s done ps Q P' h _ hc _
    rw [check, List.append_nil]
    have e : (Q ++ P').take Q.length = Q := by simp
    have := inv_close h lifo Q.length (by simp) (hc.imp id (fun hc => by
      rw [common_self_append] at hc
      have : common P' [] = 0 := by cases P' <;> rfl
      omega))
    rwa [e] at this
  | cons c cs ih =>
    intro s done ps Q P' h hp hc hg
    have e1 : Q ++ c :: cs = (Q ++ [c]) ++ cs := by simp
    have fresh : (∀ x t, P' = x :: t → x ≠ c) → ∀ d ∈ done, ∀ q, Q <+: q → q ≠ Q → q <+: Q ++ c :: cs → ¬ q <+: d.full := by
      intro hx d hd q h1 h2 h3 h4
      have h5 := hg d hd q h4 h3
      obtain ⟨t, rfl⟩ := h1
      cases t with
      | nil => exact h2 (by simp)
      | cons y t =>
        obtain ⟨u, hu⟩ := h3
        obtain ⟨w, hw⟩ := h5
        rw [List.append_assoc] at hu hw
        have hu := List.append_cancel_left hu
        have hw := List.append_cancel_left hw
        simp only [List.cons_append, List.cons.injEq] at hu
        exact hx y (t ++ w) hw.symm hu.1
    cases P' with
    | nil =>
      rw [List.append_nil] at h
      exact check_open lifo (c :: cs) h hp (fresh (by intro x t e; cases e))
    | cons x t =>
      have hlt : Q.length < s.stack.length := by rw [h.len]; simp
      have hs : s.stack[Q.length]? = some s.stack[Q.length] := List.getElem?_eq_getElem hlt
      have hx := h.names _ _ hs
      have hx2 : x = s.stack[Q.length].name := by
        rw [List.getElem?_append_right (Nat.le_refl _)] at hx
        simpa using hx
      rw [check, hs]
      simp only
      rw [← hx2]
      by_cases hxc : c = x
      · subst hxc
        rw [if_neg (fun q : c ≠ c => q rfl), if_neg (by omega)]
        have := ih (Q ++ [c]) t (by simpa using h) (e1 ▸ hp) (by simpa using hc) (by simpa using hg)
        rw [e1]
        simpa using this
      · rw [if_pos hxc]
        have hcl := inv_close h lifo Q.length (by simp) (hc.imp id (fun hc => by
          rw [common_self_append] at hc
          have : common (x :: t) (c :: cs) = 0 := by simp [common, Ne.symm hxc]
          omega))
        have e : (Q ++ x :: t).take Q.length = Q := by simp
        rw [e] at hcl
        have hl2 : Q.length = (s.close lifo Q.length).stack.length := hcl.len.symm
        rw [if_pos hl2]
        have hop := check_open lifo (c :: cs) hcl hp (fresh (by intro x' t' e; cases e; exact Ne.symm hxc))
        have hn : (s.close lifo Q.length).stack[Q.length]? = none := List.getElem?_eq_none (by omega)
        rw [check, hn] at hop
        simp only at hop
        rw [if_pos hl2] at hop
        exact hop

private theorem add_inv (lifo : Bool) {s : St} {done : List Entry} {ps : List (List Str)} {P : List Str} (h : Inv s done ps P) (e : Entry)
    (hpl : e.Plain) (hps : e.path ∈ ps) (hc : lifo = true ∨ P.length ≤ common P e.path + 1)
    (hg : ∀ d ∈ done, ∀ q, q <+: d.full → q <+: e.path → q <+: P) (ha : ∀ d ∈ done, ¬ e.full <+: d.full) :
    ∃ s', add lifo e.item s = some s' ∧ Inv s' (done ++ [e]) ps e.path := by
  have hk := check_inv lifo e.path [] P h ⟨e.path, hps, by simp⟩ (by simpa using hc) (by simpa using hg)
  simp only [List.nil_append, List.length_nil] at hk
  have hset := inv_set hk e rfl hps ha
  have hcut := cut_item e hpl
  have hv : e.item.v = e.v := rfl
  refine ⟨(check lifo e.path 0 s).setAttr (check lifo e.path 0 s).cur e.name (.obj e.v), ?_, hset⟩
  -- the innermost scope is the current one
  have htop : ∀ x, (check lifo e.path 0 s).stack.getLast? = some x → x.id = (check lifo e.path 0 s).cur := by
    intro x hx
    rw [List.getLast?_eq_getElem?] at hx
    have hlen := (List.getElem?_eq_some_iff.1 hx).1
    have := hk.ids _ x hx
    rw [List.take_of_length_le (by have := hk.len; omega), hk.cur] at this
    exact (Ent.sc.inj (Option.some.inj this)).symm
  have hbot : (check lifo e.path 0 s).stack.getLast? = none → (check lifo e.path 0 s).cur = 0 := by
    intro hx
    have h0 : (check lifo e.path 0 s).stack = [] := List.getLast?_eq_none_iff.1 hx
    have hp : e.path = [] := by
      have := hk.len
      rw [h0] at this
      exact List.length_eq_zero_iff.1 this.symm
    have hcur := hk.cur
    generalize check lifo e.path 0 s = s1 at hcur
    rw [hp] at hcur
    exact (Ent.sc.inj (Option.some.inj hcur)).symm
  rw [add]
  by_cases hf : e.item.fn = true
  · rw [if_pos hf, addFunctional, hcut, hv]
    simp only
    cases hl : (check lifo e.path 0 s).stack.getLast? with
    | none =>
      have : ((check lifo e.path 0 s).setAttr (check lifo e.path 0 s).cur e.name (.obj e.v)).stack.getLast? = none := hl
      rw [this]
    | some x =>
      have : ((check lifo e.path 0 s).setAttr (check lifo e.path 0 s).cur e.name (.obj e.v)).stack.getLast? = some x := hl
      rw [this]
      simp [St.setAttr, htop x hl]
  · rw [if_neg hf, addObject, hcut, hv]
    simp only
    cases hl : (check lifo e.path 0 s).stack.getLast? with
    | none => simp only; rw [if_pos (hbot hl), hbot hl]
    | some x => simp only; rw [htop x hl]

private theorem inv_more {s : St} {done : List Entry} {ps ps' : List (List Str)} {P : List Str} (h : Inv s done ps P) (hs : ∀ p ∈ ps, p ∈ ps') :
    Inv s done ps' P :=
  { h with sub := fun q i hq => (h.sub q i hq).imp id (fun ⟨p, hp, hpp⟩ => ⟨p, hs p hp, hpp⟩) }

/-- What is added is found under its name, if additions to one scope follow each other, names do not clash, and either the scopes
left are destroyed from the innermost one or only one is left at a time. -/
theorem C86_found_partial (lifo : Bool) (es : List Entry) (hp : ∀ e ∈ es, e.Plain) (hg : Grouped es) (ha : Apart es)
    (hs : lifo = true ∨ Steps es) :
    ∃ s, addAll lifo (es.map Entry.item) St.init = some s ∧ ∀ e ∈ es, resolve s.attr (e.path ++ [e.name]) = some (.obj e.v) := by
  have key : ∀ (rest done : List Entry) (s : St), es = done ++ rest →
      Inv s done (es.map Entry.path) ((done.getLast?.map Entry.path).getD []) →
      ∃ s', addAll lifo (rest.map Entry.item) s = some s' ∧ ∀ e ∈ es, resolve s'.attr (e.path ++ [e.name]) = some (.obj e.v) := by
    intro rest
    induction rest with
    | nil =>
      intro done s he h
      rw [List.append_nil] at he
      subst he
      exact ⟨s, rfl, h.have_⟩
    | cons e rest ih =>
      intro done s he h
      have hmem : e ∈ es := by rw [he]; exact List.mem_append.2 (.inr (.head _))
      obtain ⟨s1, h1, h2⟩ := add_inv lifo h e (hp e hmem) (List.mem_map.2 ⟨e, hmem, rfl⟩)
        (by
          rcases hs with hs | hs
          · exact .inl hs
          · right
            rcases done.eq_nil_or_concat with rfl | ⟨done', l, rfl⟩
            · simp
            · simp only [List.concat_eq_append, List.getLast?_append, List.getLast?_singleton, Option.some_or, Option.map_some, Option.getD_some]
              exact steps_at hs done' rest l e (by rw [he]; simp))
        (by
          intro d hd q hq hqe
          have hqd : q <+: d.path := by
            rcases prefix_snoc hq with h | h
            · exact h
            · exfalso
              obtain ⟨a, b, hab⟩ := List.append_of_mem hd
              have hfull : ¬ d.full <+: e.full := apart_at ha a (b ++ e :: rest) d e (by rw [he, hab]; simp) (.inr (by simp))
              rw [h] at hqe
              exact hfull (hqe.trans (List.prefix_append _ _))
          rcases done.eq_nil_or_concat with rfl | ⟨done', l, rfl⟩
          · cases hd
          · simp only [List.concat_eq_append, List.getLast?_append, List.getLast?_singleton, Option.some_or, Option.map_some, Option.getD_some] at hd ⊢
            rcases List.mem_append.1 hd with hd | hd
            · obtain ⟨a, b, hab⟩ := List.append_of_mem hd
              exact grouped_at hg a b [] rest d l e (by rw [he, hab]; simp) q hqd hqe
            · simp only [List.mem_singleton] at hd
              rw [← hd]; exact hqd)
        (fun d hd => apart_at ha done rest e d he (.inl hd))
      obtain ⟨s2, h3, h4⟩ := ih (done ++ [e]) s1 (by rw [he]; simp) (by simpa using h2)
      refine ⟨s2, ?_, h4⟩
      rw [List.map_cons, addAll, h1]
      exact h3
  exact key es [] St.init rfl (inv_more inv_init (fun p h => by cases h))

-- s.r, s.t.u, s.f, q.v, w
example : ∃ es : List Entry, es = [⟨[[115]], [114], false, 1⟩, ⟨[[115], [116]], [117], false, 2⟩, ⟨[[115]], [102], true, 3⟩, ⟨[[113]], [118], false, 4⟩, ⟨[], [119], false, 5⟩] ∧
    (∀ e ∈ es, e.Plain) ∧ Grouped es ∧ Apart es ∧ Steps es ∧
    ((addAll false (es.map Entry.item) St.init).map fun s => es.map fun e => resolve s.attr e.full) =
      some [some (.obj 1), some (.obj 2), some (.obj 3), some (.obj 4), some (.obj 5)] := by
  refine ⟨_, rfl, ?_, ?_, ?_, ?_, by decide +kernel⟩
  · simp only [Entry.Plain]
    decide
  · simp only [Grouped]
    decide
  · simp only [Apart]
    decide
  · simp only [Steps]
    decide

private theorem cut1 {a x : Str} (ha : 46 ∉ a) (hx : 46 ∉ x) : cut (a ++ 46 :: x) = ([a], x) := by rw [cut_dot _ _ ha, cut_plain _ hx]

private theorem cut2 {a b x : Str} (ha : 46 ∉ a) (hb : 46 ∉ b) (hx : 46 ∉ x) : cut (a ++ 46 :: (b ++ 46 :: x)) = ([a, b], x) := by
  rw [cut_dot _ _ ha, cut1 hb hx]

/-- A scope returned to after another one is made anew, and what was in it is lost. -/
theorem C86_fails_return (lifo : Bool) (a b x y z : Str) (u v w : Nat) (ha : 46 ∉ a) (hb : 46 ∉ b) (hx : 46 ∉ x) (hy : 46 ∉ y) (hz : 46 ∉ z)
    (hab : a ≠ b) (hxz : x ≠ z) :
    ∃ s, addAll lifo [Entry.item ⟨[a], x, false, u⟩, Entry.item ⟨[b], y, false, v⟩, Entry.item ⟨[a], z, false, w⟩] St.init = some s ∧
      resolve s.attr [a, x] = none ∧ resolve s.attr [a, z] = some (.obj w) := by
  refine ⟨_, by
    simp [addAll, add, addObject, cut1 ha hx, cut1 hb hy, cut1 ha hz, check, St.init, St.openScope, St.close, St.setAttr, Entry.item, hab, hab.symm]
    rfl, ?_, ?_⟩
  all_goals cases lifo <;> simp [resolve, attrOf, destroyed, hab, hab.symm, hxz, hxz.symm]

example : ((addAll true [⟨false, [97, 46, 120], 1⟩, ⟨false, [98, 46, 121], 2⟩, ⟨false, [97, 46, 122], 3⟩] St.init).map fun s =>
    [resolve s.attr [[97], [120]], resolve s.attr [[98], [121]], resolve s.attr [[97], [122]]]) = some [none, some (.obj 2), some (.obj 3)] := by decide +kernel

/-- Where elements of vectors are destroyed from the first: after something two scopes deep, a function of the module is put into
the outer scope, and an object of the module raises TypeError. -/
theorem C86_fails_leave (a b x f : Str) (u v : Nat) (ha : 46 ∉ a) (hb : 46 ∉ b) (hx : 46 ∉ x) (hf : 46 ∉ f) (hfa : f ≠ a) :
    (∃ s, addAll false [Entry.item ⟨[a, b], x, false, u⟩, Entry.item ⟨[], f, true, v⟩] St.init = some s ∧
      resolve s.attr [f] = none ∧ resolve s.attr [a, f] = some (.obj v)) ∧
    addAll false [Entry.item ⟨[a, b], x, false, u⟩, Entry.item ⟨[], f, false, v⟩] St.init = none := by
  constructor
  · refine ⟨_, by
      simp [addAll, add, addObject, addFunctional, cut2 ha hb hx, cut_plain f hf, check, St.init, St.openScope, St.close, St.setAttr, Entry.item, destroyed]
      rfl, ?_, ?_⟩
    all_goals simp [resolve, attrOf, hfa]
  · simp [addAll, add, addObject, addFunctional, cut2 ha hb hx, cut_plain f hf, check, St.init, St.openScope, St.close, St.setAttr, Entry.item, destroyed]

/-- Likewise, whatever the module defines after the `python_t` is gone goes into the outer scope of what was added last. -/
theorem C86_fails_finish (a b x : Str) (u : Nat) (ha : 46 ∉ a) (hb : 46 ∉ b) (hx : 46 ∉ x) :
    ∃ s, addAll false [Entry.item ⟨[a, b], x, false, u⟩] St.init = some s ∧ s.finish false ≠ 0 ∧ resolve s.attr [a] = some (.sc (s.finish false)) ∧
      s.finish true = 0 := by
  refine ⟨_, by
    simp [addAll, add, addObject, cut2 ha hb hx, check, St.init, St.openScope, St.close, St.setAttr, Entry.item, destroyed]
    rfl, ?_, ?_, ?_⟩
  all_goals simp [resolve, attrOf, St.finish, destroyed]

private def Bottom (s : St) : Prop := (s.stack = [] → s.cur = 0) ∧ ∀ e, s.stack[0]? = some e → e.prev = 0

private theorem destroyed_reverse (c : Nat) (l : List Scope) : destroyed c l.reverse = (l.head?.map Scope.prev).getD c := by
  cases l with
  | nil => rfl
  | cons e l => rw [List.reverse_cons, destroyed_last]; rfl

private theorem bottom_close {s : St} (h : Bottom s) (level : Nat) : Bottom (s.close true level) := by
  constructor
  · intro he
    simp only [St.close, if_true, destroyed_reverse] at he ⊢
    rcases List.take_eq_nil_iff.1 he with rfl | he
    · rw [List.drop_zero]
      cases hs : s.stack with
      | nil => simpa using h.1 hs
      | cons e l => simpa using h.2 e (by rw [hs]; rfl)
    · rw [he]; simpa using h.1 he
  · intro e he
    refine h.2 e ?_
    simp only [St.close, List.getElem?_take] at he
    split at he
    · exact he
    · cases he

private theorem bottom_open {s : St} (h : Bottom s) (n : Str) : Bottom (s.openScope n) := by
  constructor
  · intro he; simp [St.openScope, St.setAttr] at he
  · intro e he
    simp only [St.openScope, St.setAttr] at he
    cases hs : s.stack with
    | nil =>
      rw [hs] at he
      cases he
      exact h.1 hs
    | cons x l =>
      rw [hs] at he
      exact h.2 e (by rw [hs]; exact he)

private theorem bottom_check : ∀ (cs : List Str) (level : Nat) {s : St}, Bottom s → Bottom (check true cs level s) := by
  intro cs
  induction cs with
  | nil => intro level s h; exact bottom_close h level
  | cons c cs ih =>
    intro level s h
    rw [check]
    apply ih
    have h1 : ∀ o : Option Scope, Bottom (match o with
        | some e => if c ≠ e.name then s.close true level else s
        | none => s) := by
      intro o
      cases o with
      | none => exact h
      | some e =>
        simp only
        split
        · exact bottom_close h level
        · exact h
    have h1 := h1 s.stack[level]?
    have h2 : ∀ t : St, Bottom t → Bottom (if level = t.stack.length then t.openScope c else t) := by
      intro t ht
      split
      · exact bottom_open ht c
      · exact ht
    exact h2 _ h1

private theorem bottom_add (i : Item) {s s' : St} (h : Bottom s) (e : add true i s = some s') : Bottom s' := by
  have hk := bottom_check (cut i.d).1 0 h
  rw [add] at e
  split at e
  · rw [addFunctional] at e
    split at e
    · split at e
      · cases e; exact hk
      · cases e
    · cases e; exact hk
  · rw [addObject] at e
    split at e
    · cases e; exact hk
    · split at e
      · cases e; exact hk
      · cases e

/-- In the order of libc++ the module is current again in the end, whatever was added. -/
theorem C86_finish (is : List Item) (s : St) (h : addAll true is St.init = some s) : s.finish true = 0 := by
  have key : ∀ (is : List Item) (s s' : St), Bottom s → addAll true is s = some s' → Bottom s' := by
    intro is
    induction is with
    | nil => intro s s' h e; cases e; exact h
    | cons i is ih =>
      intro s s' h e
      rw [addAll] at e
      cases ha : add true i s with
      | none => rw [ha] at e; cases e
      | some s1 => rw [ha] at e; exact ih s1 s' (bottom_add i h ha) e
  have hb := key is St.init s ⟨fun _ => rfl, fun e he => by cases he⟩ h
  rw [St.finish, if_pos rfl, destroyed_reverse]
  cases hs : s.stack with
  | nil => rfl
  | cons e l => exact hb.2 e (by rw [hs]; rfl)

end Verif.PyScope
