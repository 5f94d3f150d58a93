import Verif.XmlParse
import Verif.XmlKeys
/-
Documents as trees, their tokens, and the database that parsing them fills.
-/
namespace Verif.Xml
open OMap EnumKeys
open Verif.Json (JV dot tail)

/-- An element: its name, attributes, character data (markup and children removed), children. -/
inductive Tree
  | mk (name : Str) (ats : List (Str × Str)) (txt : Str) (kids : List Tree)

namespace Tree
def name : Tree → Str | mk n _ _ _ => n
def ats : Tree → List (Str × Str) | mk _ a _ _ => a
def txt : Tree → Str | mk _ _ t _ => t
def kids : Tree → List Tree | mk _ _ _ k => k
end Tree

/-! ### What parsing does to the database -/

def putAttrs (si : Str) : List (Str × Str) → DB → DB
  | [], m => m
  | (k, v) :: a, m => putAttrs si a (setCon m (si ++ dot :: k) v)

mutual
def walk (sc : Str) : Tree → DB → DB
  | .mk _ ats txt ks, m =>
    let si := idx sc (countOf m sc)
    let m2 := walkL si ks (putAttrs si ats (bump m sc))
    if txt = [] then m2 else setCon m2 si txt
def walkL (si : Str) : List Tree → DB → DB
  | [], m => m
  | t :: ts, m => walkL si ts (walk (si ++ dot :: t.name) t m)
end

/-! ### Tokens of a document -/

def SpaceToks (l : List Str) : Prop := ∀ t ∈ l, spaceTok t = true

/-- Tokens of attributes. -/
inductive AtsT : List (Str × Str) → List Str → Prop
  | nil : AtsT [] []
  | sp {t a l} : spaceTok t = true → AtsT a l → AtsT a (t :: l)
  | attr {k v a l s1 s2} : k ≠ [] → k ≠ [62] → k ≠ [47, 62] → spaceTok k = false → v ≠ [] →
      spaceTok v = false → SpaceToks s1 → SpaceToks s2 → AtsT a l →
      AtsT ((k, v) :: a) (k :: (s1 ++ [61] :: (s2 ++ v :: l)))

/-- Tokens of the inside of an element. -/
inductive BodyT : Str → List Tree → List Str → Prop
  | nil : BodyT [] [] []
  | text {t s ks l} : t ≠ [] → t ≠ [60] → t ≠ [60, 47] → BodyT s ks l → BodyT (t ++ s) ks (t :: l)
  | kid {n a al s ks bl sp s' ks' l} : n ≠ [] → n ≠ [62] → AtsT a al → BodyT s ks bl →
      SpaceToks sp → BodyT s' ks' l →
      BodyT s' (.mk n a s ks :: ks')
        ([60] :: n :: (al ++ [62] :: (bl ++ [60, 47] :: n :: (sp ++ [62] :: l))))
  | kidE {n a al s' ks' l} : n ≠ [] → AtsT a al → BodyT s' ks' l →
      BodyT s' (.mk n a [] [] :: ks') ([60] :: n :: (al ++ [47, 62] :: l))

/-! ### Parsing the tokens -/

theorem attrEq_spaces {s : List Str} (hs : SpaceToks s) (l : List Str) :
    attrEq (s ++ [61] :: l) = some l := by
  induction s with
  | nil => simp [attrEq, spaceTok, isSpace]
  | cons t s ih =>
    have ht := hs t (by simp)
    have h1 : t ≠ [] := by intro e; subst e; simp [spaceTok] at ht
    simp [attrEq, h1, ht, ih (fun x hx => hs x (by simp [hx]))]

theorem attrVal_spaces {s : List Str} (hs : SpaceToks s) {v : Str} (hv : v ≠ [])
    (hv' : spaceTok v = false) (l : List Str) : attrVal (s ++ v :: l) = some (v, l) := by
  induction s with
  | nil => simp [attrVal, hv, hv']
  | cons t s ih =>
    have ht := hs t (by simp)
    have h1 : t ≠ [] := by intro e; subst e; simp [spaceTok] at ht
    simp [attrVal, h1, ht, ih (fun x hx => hs x (by simp [hx]))]

theorem attrsR_ats {a : List (Str × Str)} {l : List Str} (h : AtsT a l) (si : Str) (m : DB)
    (rest : List Str) : attrsR si m (l ++ rest) = attrsR si (putAttrs si a m) rest := by
  induction h generalizing m with
  | nil => rfl
  | sp ht _ ih => rw [List.cons_append, attrsR_space _ _ _ ht, ih]
  | attr h1 h2 h3 h4 h5 h6 h7 h8 _ ih =>
    rw [List.cons_append, attrsR_attr si m h1 h2 h3 h4 (l1 := _) (l2 := _) (v := _)]
    · rw [ih]; rfl
    · simp only [List.append_assoc, List.cons_append]
      exact attrEq_spaces h7 _
    · exact attrVal_spaces h8 h5 h6 _

theorem skipEnd_spaces {s : List Str} (hs : SpaceToks s) (l : List Str) :
    skipEnd (s ++ [62] :: l) = some l := by
  induction s with
  | nil => simp [skipEnd]
  | cons t s ih =>
    have ht := hs t (by simp)
    have h1 : t ≠ [] := by intro e; subst e; simp [spaceTok] at ht
    have h2 : t ≠ [62] := by intro e; subst e; revert ht; decide
    simp [skipEnd, h1, h2, ih (fun x hx => hs x (by simp [hx]))]

theorem rfind_suffix (p : Str) {n : Str} (hn : n ≠ []) : rfind (p ++ n) n = some p.length := by
  unfold rfind
  have hlen : 0 < n.length := List.length_pos_iff.2 hn
  have hsplit : List.range ((p ++ n).length + 1) =
      List.range p.length ++ [p.length] ++ (List.range n.length).map (· + (p.length + 1)) := by
    rw [show (p ++ n).length + 1 = (p.length + 1) + n.length from by simp; omega, List.range_add,
      List.range_succ]
    congr 1
    apply List.map_congr_left; intro a _; omega
  rw [hsplit, List.reverse_append, List.find?_append]
  have hnone : List.find? (fun i => n.isPrefixOf ((p ++ n).drop i))
      ((List.range n.length).map (· + (p.length + 1))).reverse = none := by
    rw [List.find?_eq_none]
    intro i hi hp
    simp only [List.mem_reverse, List.mem_map, List.mem_range] at hi
    obtain ⟨a, ha, rfl⟩ := hi
    rw [List.isPrefixOf_iff_prefix] at hp
    have := hp.length_le
    simp at this; omega
  rw [hnone]
  simp

theorem endMatches_suffix (p : Str) {n : Str} (hn : n ≠ []) : endMatches (p ++ n) n = true := by
  unfold endMatches
  rw [rfind_suffix p hn]
  simp

theorem endTag_ok {scope n : Str} (hs : endMatches scope n = true) (hn : n ≠ []) (hn' : n ≠ [62])
    {sp : List Str} (hsp : SpaceToks sp) (l : List Str) :
    endTag scope (n :: (sp ++ [62] :: l)) = some l := by
  simp [endTag, hn, hn', hs, skipEnd_spaces hsp]

theorem contentR_body {s : Str} {ks : List Tree} {b : List Str} (h : BodyT s ks b) (si acc : Str)
    (m : DB) (rest : List Str) :
    contentR si acc m (b ++ rest) = contentR si (acc ++ s) (walkL si ks m) rest := by
  induction h generalizing si acc m rest with
  | nil => simp [walkL]
  | text h1 h2 h3 _ ih =>
    rw [List.cons_append, contentR_text _ _ _ _ h1 h3 h2, ih, List.append_assoc]
  | @kid n a al s ks bl sp s' ks' l h1 h2 ha _ hsp _ ihb ih =>
    have e : [60] :: n :: (al ++ [62] :: (bl ++ [60, 47] :: n :: (sp ++ [62] :: l))) ++ rest =
        [60] :: n :: (al ++ ([62] :: (bl ++ ([60, 47] :: (n :: (sp ++ [62] :: (l ++ rest))))))) := by
      simp
    rw [e, contentR_kid _ _ _ _ h1, elemR_eq, attrsR_ats ha, attrsR_gt]
    simp only [afterAttrs]
    rw [ihb, contentR_end]
    simp only [afterContent]
    have hm : endMatches (si ++ dot :: n) n = true := by
      have := endMatches_suffix (si ++ [dot]) h1; simpa using this
    rw [endTag_ok hm h1 h2 hsp]
    simp only [afterKid]
    rw [ih]
    simp only [List.nil_append, walkL, walk, Tree.name]
  | @kidE n a al s' ks' l h1 ha _ ih =>
    have e : [60] :: n :: (al ++ [47, 62] :: l) ++ rest =
        [60] :: n :: (al ++ ([47, 62] :: (l ++ rest))) := by simp
    rw [e, contentR_kid _ _ _ _ h1, elemR_eq, attrsR_ats ha, attrsR_slash]
    simp only [afterAttrs, afterKid]
    rw [ih]
    simp [walkL, walk, Tree.name]

/-- Tokens of an element from its name on. -/
inductive ElemT : Tree → List Str → Prop
  | full {n a al s ks bl sp} : n ≠ [] → n ≠ [62] → AtsT a al → BodyT s ks bl → SpaceToks sp →
      ElemT (.mk n a s ks) (n :: (al ++ [62] :: (bl ++ [60, 47] :: n :: (sp ++ [[62]]))))
  | empty {n a al} : n ≠ [] → AtsT a al → ElemT (.mk n a [] []) (n :: (al ++ [[47, 62]]))

theorem parseToks_doc {t : Tree} {l : List Str} (h : ElemT t l) {sp : List Str} (hsp : SpaceToks sp)
    (m : DB) (fin : Bool) (rest : List Str) :
    parseToks m fin (sp ++ [60] :: (l ++ rest)) = some (walk t.name t m) := by
  induction sp with
  | nil =>
    simp only [List.nil_append]
    cases h with
    | @full n a al s ks bl sp' h1 h2 ha hb hs =>
      have e : n :: (al ++ [62] :: (bl ++ [60, 47] :: n :: (sp' ++ [[62]]))) ++ rest =
          n :: (al ++ ([62] :: (bl ++ ([60, 47] :: (n :: (sp' ++ [62] :: rest)))))) := by simp
      rw [e]
      simp only [parseToks, show spaceTok [60] = false from by decide, Bool.false_eq_true, if_false,
        if_neg h1, List.cons_ne_nil, if_true]
      rw [elem_eq (by omega), elemR_eq, attrsR_ats ha, attrsR_gt]
      simp only [afterAttrs]
      rw [contentR_body hb, contentR_end]
      simp only [afterContent]
      rw [endTag_ok (by simpa using endMatches_suffix [] h1) h1 h2 hs]
      simp [walk, Tree.name]
    | @empty n a al h1 ha =>
      have e : n :: (al ++ [[47, 62]]) ++ rest = n :: (al ++ ([47, 62] :: rest)) := by simp
      rw [e]
      simp only [parseToks, show spaceTok [60] = false from by decide, Bool.false_eq_true, if_false,
        if_neg h1, List.cons_ne_nil, if_true]
      rw [elem_eq (by omega), elemR_eq, attrsR_ats ha, attrsR_slash]
      simp [afterAttrs, walk, walkL, Tree.name]
  | cons t' sp ih =>
    have ht := hsp t' (by simp)
    simp only [List.cons_append, parseToks, ht, if_true]
    exact ih fun x hx => hsp x (by simp [hx])

/-! ### Looking things up -/

/-- The `i`-th child called `n`. -/
def sel (ks : List Tree) (n : Str) (i : Nat) : Option Tree := (ks.filter fun k => k.name == n)[i]?

/-- How many children are called `n`. -/
def cnt (ks : List Tree) (n : Str) : Nat := (ks.filter fun k => k.name == n).length

/-- The element at a path below. -/
def at' : Tree → Path → Option Tree
  | t, [] => some t
  | t, (n, i) :: r => (sel t.kids n i).bind fun u => at' u r

/-- The value of an attribute: the last one with that name. -/
def attr (a : List (Str × Str)) (n : Str) : Option Str :=
  a.foldl (fun o x => if x.1 = n then some x.2 else o) none

def text? (t : Str) : Option Str := if t = [] then none else some t

/-- The database has at `q` what is in the element (nothing, if there is none). -/
def LocAt (m : DB) (q : Path) (o : Option Tree) : Prop :=
  (∀ n, KeyName n → countOf m (keyS q n) = (o.map fun u => cnt u.kids n).getD 0) ∧
  mfind strLt (key q) m.con = o.bind (fun u => text? u.txt) ∧
  (∀ n, KeyName n → mfind strLt (keyS q n) m.con = o.bind fun u => attr u.ats n)

/-- The same for everything below. -/
def Loc (m : DB) (q : Path) (o : Option Tree) : Prop :=
  ∀ r, VP r → LocAt m (q ++ r) (o.bind fun t => at' t r)

/-- The same for the children of the element at `q`. -/
def LocL (m : DB) (q : Path) (ks : List Tree) : Prop :=
  (∀ n, KeyName n → countOf m (keyS q n) = cnt ks n) ∧
  ∀ n i, KeyName n → Loc m (q ++ [(n, i)]) (sel ks n i)

mutual
def VT : Tree → Prop
  | .mk n a _ ks => KeyName n ∧ (∀ x ∈ a, KeyName x.1) ∧ VTs ks
def VTs : List Tree → Prop
  | [] => True
  | t :: ts => VT t ∧ VTs ts
end

theorem VT.name {t : Tree} (h : VT t) : KeyName t.name := by cases t; exact h.1

theorem countOf_bump (m : DB) (k q : Str) :
    countOf (bump m k) q = countOf m q + if q = k then 1 else 0 := by
  simp only [countOf, bump, mfind_mput strOrd]
  split
  · rename_i h; subst h; simp [countOf]
  · simp

theorem con_bump (m : DB) (k : Str) : (bump m k).con = m.con := rfl
theorem countOf_setCon (m : DB) (k v q : Str) : countOf (setCon m k v) q = countOf m q := rfl
theorem mfind_setCon (m : DB) (k v q : Str) :
    mfind strLt q (setCon m k v).con = if q = k then some v else mfind strLt q m.con := by
  simp only [setCon, mfind_mput strOrd]

theorem countOf_putAttrs (si : Str) (a : List (Str × Str)) (m : DB) (q : Str) :
    countOf (putAttrs si a m) q = countOf m q := by
  induction a generalizing m with
  | nil => rfl
  | cons x a ih => obtain ⟨k, v⟩ := x; simp only [putAttrs]; rw [ih]; rfl

theorem mfind_putAttrs_ne (si : Str) (a : List (Str × Str)) (m : DB) (q : Str)
    (h : ∀ x ∈ a, q ≠ si ++ dot :: x.1) : mfind strLt q (putAttrs si a m).con = mfind strLt q m.con := by
  induction a generalizing m with
  | nil => rfl
  | cons x a ih =>
    obtain ⟨k, v⟩ := x
    simp only [putAttrs]
    rw [ih _ (fun y hy => h y (by simp [hy])), mfind_setCon, if_neg (h (k, v) (by simp))]

theorem mfind_putAttrs (si : Str) (a : List (Str × Str)) (m : DB) (n : Str) :
    mfind strLt (si ++ dot :: n) (putAttrs si a m).con =
      a.foldl (fun o x => if x.1 = n then some x.2 else o) (mfind strLt (si ++ dot :: n) m.con) := by
  induction a generalizing m with
  | nil => rfl
  | cons x a ih =>
    obtain ⟨k, v⟩ := x
    simp only [putAttrs, ih, List.foldl_cons, mfind_setCon]
    congr 1
    by_cases h : k = n
    · subst h; simp
    · rw [if_neg h, if_neg]; intro e; simp at e; exact h e.symm

/-- Nothing at or below `q` changes elsewhere: what parsing an element at `q` leaves alone. -/
def Same (m m' : DB) (p' : Path) : Prop :=
  (∀ n, KeyName n → countOf m' (keyS p' n) = countOf m (keyS p' n)) ∧
  mfind strLt (key p') m'.con = mfind strLt (key p') m.con ∧
  ∀ n, KeyName n → mfind strLt (keyS p' n) m'.con = mfind strLt (keyS p' n) m.con

theorem LocAt.same {m m' : DB} {q : Path} {o : Option Tree} (h : LocAt m q o) (hs : Same m m' q) :
    LocAt m' q o :=
  ⟨fun n hn => by rw [hs.1 n hn, h.1 n hn], by rw [hs.2.1, h.2.1],
    fun n hn => by rw [hs.2.2 n hn, h.2.2 n hn]⟩

theorem Same.trans {m1 m2 m3 : DB} {q : Path} (h : Same m1 m2 q) (h' : Same m2 m3 q) :
    Same m1 m3 q :=
  ⟨fun n hn => by rw [h'.1 n hn, h.1 n hn], by rw [h'.2.1, h.2.1],
    fun n hn => by rw [h'.2.2 n hn, h.2.2 n hn]⟩

theorem sel_snoc (ks : List Tree) (t : Tree) (n : Str) (i : Nat) :
    sel (ks ++ [t]) n i = if n = t.name ∧ i = cnt ks n then some t else sel ks n i := by
  unfold sel cnt
  rw [List.filter_append]
  by_cases hn : n = t.name
  · subst hn
    simp only [List.filter_cons, beq_self_eq_true, if_true, List.filter_nil, true_and]
    split
    · rename_i h; subst h; simp
    · rename_i h
      rcases Nat.lt_or_ge i (ks.filter fun k => k.name == t.name).length with h' | h'
      · rw [List.getElem?_append_left h']
      · rw [List.getElem?_append_right h', List.getElem?_eq_none (by simp; omega),
          List.getElem?_eq_none h']
  · have : (t.name == n) = false := by simpa using Ne.symm hn
    simp [List.filter_cons, this, hn]

theorem cnt_snoc (ks : List Tree) (t : Tree) (n : Str) :
    cnt (ks ++ [t]) n = cnt ks n + if n = t.name then 1 else 0 := by
  unfold cnt
  rw [List.filter_append, List.length_append]
  by_cases hn : n = t.name
  · subst hn; simp [List.filter_cons]
  · have : (t.name == n) = false := by simpa using Ne.symm hn
    simp [List.filter_cons, this, hn]

theorem sel_cnt (ks : List Tree) (n : Str) : sel ks n (cnt ks n) = none := by
  unfold sel cnt; simp

theorem cons_not_prefix (q : Path) (x : Str × Nat) : ¬ q ++ [x] <+: q := by
  intro h; have := h.length_le; simp at this; omega

theorem prefix_snoc_diff {q r : Path} {x y : Str × Nat} (h : q ++ [x] <+: q ++ [y] ++ r) : x = y := by
  rw [List.append_assoc, List.prefix_append_right_inj] at h
  simp at h; exact h

mutual
theorem walk_loc : ∀ (t : Tree) (p : Path) (m : DB), VT t → VP p →
    Loc m (p ++ [(t.name, countOf m (keyS p t.name))]) none →
    Loc (walk (keyS p t.name) t m) (p ++ [(t.name, countOf m (keyS p t.name))]) (some t) ∧
    ∀ p', VP p' → ¬ p ++ [(t.name, countOf m (keyS p t.name))] <+: p' →
      (∀ n, KeyName n → countOf (walk (keyS p t.name) t m) (keyS p' n) =
        countOf m (keyS p' n) + if p' = p ∧ n = t.name then 1 else 0) ∧
      mfind strLt (key p') (walk (keyS p t.name) t m).con = mfind strLt (key p') m.con ∧
      ∀ n, KeyName n → mfind strLt (keyS p' n) (walk (keyS p t.name) t m).con =
        mfind strLt (keyS p' n) m.con
  | .mk n ats txt ks, p, m, ⟨hn, ha, hks⟩, hp, hb => by
    simp only [Tree.name] at hb ⊢
    generalize hq : p ++ [(n, countOf m (keyS p n))] = q at hb ⊢
    have hqv : VP q := by rw [← hq]; exact hp.append (VP.single hn _)
    have hqne : q ≠ [] := by rw [← hq]; simp
    have hkq : idx (keyS p n) (countOf m (keyS p n)) = key q := by rw [← hq, key_snoc]
    have hbump : ∀ p' n', VP p' → KeyName n' → countOf (bump m (keyS p n)) (keyS p' n') =
        countOf m (keyS p' n') + if p' = p ∧ n' = n then 1 else 0 := by
      intro p' n' hp' hn'
      rw [countOf_bump]
      by_cases h : p' = p ∧ n' = n
      · obtain ⟨rfl, rfl⟩ := h; simp
      · rw [if_neg h, if_neg]
        intro e; exact h (keyS_inj hp' hp hn'.2.2 hn.2.2 e)
    have hqr : ∀ r : Path, q ++ r ≠ p := by
      intro r e; have := congrArg List.length e
      rw [← hq] at this; simp at this
    have hset : ∀ p' n', VP p' → KeyName n' → p' ≠ q → ∀ x ∈ ats, keyS p' n' ≠ key q ++ dot :: x.1 := by
      intro p' n' hp' hn' hne x hx e
      rw [← keyS_ne hqne] at e
      exact hne (keyS_inj hp' hqv hn'.2.2 (ha x hx).2.2 e).1
    have hset' : ∀ p', VP p' → ∀ x ∈ ats, key p' ≠ key q ++ dot :: x.1 := by
      intro p' hp' x hx e
      rw [← keyS_ne hqne] at e
      exact keyS_ne_key hqv hp' (ha x hx) e.symm
    simp only [walk, hkq]
    generalize hm1 : putAttrs (key q) ats (bump m (keyS p n)) = m1
    have hLL : LocL m1 q [] := by
      constructor
      · intro n' hn'
        rw [← hm1, countOf_putAttrs, hbump _ _ hqv hn']
        have := (hb [] VP.nil).1 n' hn'
        simp only [List.append_nil, Option.bind_none, Option.map_none, Option.getD_none] at this
        rw [this, if_neg (fun h => hqr [] (by simpa using h.1))]
        simp [cnt]
      · intro n' i hn' r hr
        have h0 := hb ((n', i) :: r) (by
          intro x hx; rcases List.mem_cons.1 hx with rfl | hx
          · exact hn'
          · exact hr x hx)
        have hv : VP (q ++ [(n', i)] ++ r) := (hqv.append (VP.single hn' i)).append hr
        have hne : q ++ [(n', i)] ++ r ≠ q := by
          intro e; have := congrArg List.length e; simp at this
        simp only [sel, List.filter_nil, List.getElem?_nil, Option.bind_none] at h0 ⊢
        rw [show q ++ (n', i) :: r = q ++ [(n', i)] ++ r from by simp] at h0
        refine h0.same ⟨?_, ?_, ?_⟩
        · intro n'' hn''
          rw [← hm1, countOf_putAttrs, hbump _ _ hv hn'', if_neg]
          · simp
          · intro h; exact hqr ((n', i) :: r) (by simpa using h.1)
        · rw [← hm1, mfind_putAttrs_ne _ _ _ _ (hset' _ hv)]; rfl
        · intro n'' hn''
          rw [← hm1, mfind_putAttrs_ne _ _ _ _ (hset _ _ hv hn'' hne)]; rfl
    obtain ⟨h1, h2, h3⟩ := walkL_loc ks q m1 [] hks hqv hqne hLL
    generalize hm2 : walkL (key q) ks m1 = m2 at h1 h2 h3
    -- the text of the element
    have hfin : ∀ p' n', VP p' → KeyName n' →
        countOf (if txt = [] then m2 else setCon m2 (key q) txt) (keyS p' n') = countOf m2 (keyS p' n')
        ∧ mfind strLt (keyS p' n') (if txt = [] then m2 else setCon m2 (key q) txt).con =
          mfind strLt (keyS p' n') m2.con := by
      intro p' n' hp' hn'
      split
      · exact ⟨rfl, rfl⟩
      · refine ⟨rfl, ?_⟩
        rw [mfind_setCon, if_neg (keyS_ne_key hp' hqv hn')]
    have hfinK : ∀ p', VP p' → p' ≠ q →
        mfind strLt (key p') (if txt = [] then m2 else setCon m2 (key q) txt).con =
          mfind strLt (key p') m2.con := by
      intro p' hp' hne
      split
      · rfl
      · rw [mfind_setCon, if_neg]; intro e; exact hne (key_inj hp' hqv e)
    have hcq : mfind strLt (key q) (if txt = [] then m2 else setCon m2 (key q) txt).con =
        text? txt := by
      have hm2q : mfind strLt (key q) m2.con = none := by
        rw [h3.1, ← hm1, mfind_putAttrs_ne _ _ _ _ (hset' _ hqv)]
        have := (hb [] VP.nil).2.1
        simpa [con_bump] using this
      split
      · rename_i h; rw [hm2q]; simp [text?, h]
      · rename_i h; rw [mfind_setCon]; simp [text?, h]
    constructor
    · intro r hr
      cases r with
      | nil =>
        simp only [List.append_nil, Option.bind_some, at']
        refine ⟨?_, ?_, ?_⟩
        · intro n' hn'
          rw [(hfin _ _ hqv hn').1, h1.1 n' hn']
          simp [Tree.kids]
        · rw [hcq]; rfl
        · intro n' hn'
          rw [(hfin _ _ hqv hn').2, h3.2 n' hn', ← hm1, keyS_ne hqne, mfind_putAttrs]
          have := (hb [] VP.nil).2.2 n' hn'
          simp only [List.append_nil, Option.bind_none, keyS_ne hqne] at this
          rw [con_bump, this]; rfl
      | cons x r =>
        obtain ⟨n', i⟩ := x
        have hn' : KeyName n' := hr (n', i) (by simp)
        have hr' : VP r := fun y hy => hr y (by simp [hy])
        have := h1.2 n' i hn' r hr'
        rw [List.append_assoc, List.singleton_append] at this
        simp only [Option.bind_some, at', Tree.kids, List.nil_append] at this ⊢
        have hv : VP (q ++ (n', i) :: r) := hqv.append hr
        refine this.same ⟨fun n'' hn'' => (hfin _ _ hv hn'').1, hfinK _ hv ?_,
          fun n'' hn'' => (hfin _ _ hv hn'').2⟩
        intro e; have := congrArg List.length e; simp at this
    · intro p' hp' hnp
      have hs := h2 p' hp' hnp
      have hne : p' ≠ q := by rintro rfl; exact hnp List.prefix_rfl
      refine ⟨?_, ?_, ?_⟩
      · intro n' hn'
        rw [(hfin _ _ hp' hn').1, hs.1 n' hn', ← hm1, countOf_putAttrs, hbump _ _ hp' hn']
        by_cases h : p' = p ∧ n' = n
        · rw [if_pos h]; exact congrArg _ (if_pos h).symm
        · rw [if_neg h]; exact congrArg _ (if_neg h).symm
      · rw [hfinK _ hp' hne, hs.2.1, ← hm1, mfind_putAttrs_ne _ _ _ _ (hset' _ hp')]; rfl
      · intro n' hn'
        rw [(hfin _ _ hp' hn').2, hs.2.2 n' hn', ← hm1,
          mfind_putAttrs_ne _ _ _ _ (hset _ _ hp' hn' hne)]; rfl
theorem walkL_loc : ∀ (ks : List Tree) (q : Path) (m : DB) (done : List Tree), VTs ks → VP q →
    q ≠ [] → LocL m q done →
    LocL (walkL (key q) ks m) q (done ++ ks) ∧
    (∀ p', VP p' → ¬ q <+: p' → Same m (walkL (key q) ks m) p') ∧
    (mfind strLt (key q) (walkL (key q) ks m).con = mfind strLt (key q) m.con ∧
      ∀ n, KeyName n → mfind strLt (keyS q n) (walkL (key q) ks m).con =
        mfind strLt (keyS q n) m.con)
  | [], q, m, done, _, _, _, h => by
    simp only [walkL, List.append_nil]
    exact ⟨h, fun p' _ _ => ⟨fun _ _ => rfl, rfl, fun _ _ => rfl⟩, by simp⟩
  | t :: ts, q, m, done, ⟨ht, hts⟩, hq, hqne, h => by
    have hn := ht.name
    have hc : countOf m (keyS q t.name) = cnt done t.name := h.1 _ hn
    have hb : Loc m (q ++ [(t.name, countOf m (keyS q t.name))]) none := by
      have := h.2 t.name (cnt done t.name) hn
      rw [sel_cnt] at this; rw [hc]; exact this
    obtain ⟨h1, h2⟩ := walk_loc t q m ht hq hb
    rw [hc] at h1 h2
    generalize hm1 : walk (keyS q t.name) t m = m1 at h1 h2
    have hL : LocL m1 q (done ++ [t]) := by
      constructor
      · intro n' hn'
        rw [(h2 q hq (cons_not_prefix _ _)).1 n' hn', h.1 n' hn', cnt_snoc]
        simp
      · intro n' i hn'
        rw [sel_snoc]
        split
        · rename_i e; obtain ⟨rfl, rfl⟩ := e; exact h1
        · rename_i e
          intro r hr
          have h0 := h.2 n' i hn' r hr
          have hv : VP (q ++ [(n', i)] ++ r) := (hq.append (VP.single hn' i)).append hr
          have hnp : ¬ q ++ [(t.name, cnt done t.name)] <+: q ++ [(n', i)] ++ r := by
            intro hp
            have := prefix_snoc_diff hp
            simp only [Prod.mk.injEq] at this
            exact e ⟨this.1.symm, by rw [← this.2, this.1]⟩
          have h3 := h2 _ hv hnp
          have hne : q ++ [(n', i)] ++ r ≠ q := by
            intro e; have := congrArg List.length e; simp at this
          refine h0.same ⟨?_, h3.2.1, h3.2.2⟩
          intro n'' hn''
          rw [h3.1 n'' hn'', if_neg (fun x => hne x.1)]; simp
    obtain ⟨g1, g2, g3⟩ := walkL_loc ts q m1 (done ++ [t]) hts hq hqne hL
    simp only [walkL]
    rw [← keyS_ne hqne, hm1]
    refine ⟨by simpa using g1, ?_, ?_, ?_⟩
    · intro p' hp' hnp
      refine Same.trans ?_ (g2 p' hp' hnp)
      have hnp' : ¬ q ++ [(t.name, cnt done t.name)] <+: p' := by
        intro hp; exact hnp ((List.prefix_append _ _).trans hp)
      have h3 := h2 p' hp' hnp'
      refine ⟨?_, h3.2.1, h3.2.2⟩
      intro n'' hn''
      rw [h3.1 n'' hn'', if_neg]
      · simp
      · rintro ⟨rfl, _⟩; exact hnp List.prefix_rfl
    · rw [g3.1, (h2 q hq (cons_not_prefix _ _)).2.1]
    · intro n' hn'
      rw [g3.2 n' hn', (h2 q hq (cons_not_prefix _ _)).2.2 n' hn']
end

theorem Loc_empty (q : Path) : Loc DB.empty q none := by
  intro r _
  exact ⟨fun _ _ => rfl, rfl, fun _ _ => rfl⟩

/-- The database after parsing a document into an empty one. -/
theorem walk_empty {t : Tree} (h : VT t) : Loc (walk t.name t DB.empty) [(t.name, 0)] (some t) := by
  have := (walk_loc t [] DB.empty h VP.nil (Loc_empty _)).1
  simpa [keyS, countOf, DB.empty, mfind] using this

theorem Loc.kid {m : DB} {q : Path} {t : Tree} (h : Loc m q (some t)) {n : Str} {i : Nat}
    (hn : KeyName n) : Loc m (q ++ [(n, i)]) (sel t.kids n i) := by
  intro r hr
  have := h ((n, i) :: r) (by
    intro x hx; rcases List.mem_cons.1 hx with rfl | hx
    · exact hn
    · exact hr x hx)
  rw [List.append_assoc, List.singleton_append]
  simpa [at'] using this

theorem Loc.count {m : DB} {q : Path} {t : Tree} (h : Loc m q (some t)) {n : Str}
    (hn : KeyName n) : countOf m (keyS q n) = cnt t.kids n := by
  have := (h [] VP.nil).1 n hn
  simpa [at'] using this

theorem Loc.text {m : DB} {q : Path} {t : Tree} (h : Loc m q (some t)) :
    mfind strLt (key q) m.con = text? t.txt := by
  have := (h [] VP.nil).2.1
  simpa [at'] using this

theorem Loc.attr {m : DB} {q : Path} {t : Tree} (h : Loc m q (some t)) {n : Str}
    (hn : KeyName n) : mfind strLt (keyS q n) m.con = attr t.ats n := by
  have := (h [] VP.nil).2.2 n hn
  simpa [at'] using this

end Verif.Xml
