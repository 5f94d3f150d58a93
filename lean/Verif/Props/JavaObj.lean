import Verif.JavaObj
/-
C118: C++ objects used from Java.
-/
namespace Verif.JavaObj

/-! ### Specification -/

def C118.nameOf : Mem → Str
  | .data n _ _ => n
  | .cst n _ => n
  | .meth n _ => n
  | .nest n _ => n

/-- The names Java is to find for a member. -/
def C118.offers : Mem → List Str
  | .data n _ _ => [n, "get".toList ++ cap n, "set".toList ++ cap n]
  | .cst n _ => [n, "get".toList ++ cap n, "set".toList ++ cap n]
  | .meth n _ => [n]
  | .nest n _ => [n]

/-- Classes, with the classes of their members, in which no two members are to be found under the same name. -/
inductive C118.Good : List Mem → Prop
  | mk (ms : List Mem) : (ms.flatMap C118.offers).Nodup → (∀ m ∈ ms, '.' ∉ C118.nameOf m) →
      (∀ n ms', .nest n ms' ∈ ms → Good ms') → Good ms

/-- `m` is a member of the object named `d'`, which is the one named `d` or inside of it. -/
inductive C118.Has : Str → List Mem → Str → Mem → Prop
  | here (d : Str) (ms : List Mem) (m : Mem) : m ∈ ms → Has d ms d m
  | deep (d : Str) (ms : List Mem) (n : Str) (ms' : List Mem) (d' : Str) (m : Mem) : .nest n ms' ∈ ms →
      Has (d ++ '.' :: n) ms' d' m → Has d ms d' m

/-- The letters Java has for types. -/
def C118.letter : Ty → Str
  | .int => "I".toList
  | .float => "F".toList

/-- The descriptor of a function. -/
def C118.descr (args : List Ty) (ret : Option Ty) : Str :=
  "(".toList ++ args.flatMap C118.letter ++ ")".toList ++ (match ret with | some t => C118.letter t | none => "V".toList)

/-- What is declared to Java for a member: names with descriptors. -/
def C118.declares : Mem → List (Str × Str)
  | .data n t _ => [(n, C118.descr [t] (some t)), ("get".toList ++ cap n, C118.descr [] (some t)), ("set".toList ++ cap n, C118.descr [t] none)]
  | .cst n t => [(n, C118.descr [t] (some t)), ("get".toList ++ cap n, C118.descr [] (some t)), ("set".toList ++ cap n, C118.descr [t] none)]
  | .meth n f => [(n, C118.descr f.args f.ret)]
  | .nest _ _ => []

open C118

/-! ### Lemmas -/

theorem C118.letter_sig (t : Ty) : C118.letter t = t.sig := by cases t <;> rfl

theorem C118.descr_sig (f : Fn) : C118.descr f.args f.ret = f.sig := by
  have : f.args.flatMap C118.letter = (f.args.map Ty.sig).flatten := by
    rw [← List.flatMap_def, show C118.letter = Ty.sig from funext letter_sig]
  unfold C118.descr Fn.sig
  rw [this]
  cases f.ret with
  | none => simp
  | some t => simp [letter_sig]

private theorem split_eq : ∀ {x y a c : Str}, '.' ∉ x → '.' ∉ y → x ++ '.' :: a = y ++ '.' :: c → x = y ∧ a = c
  | [], [], _, _, _, _, h => ⟨rfl, by simpa using h⟩
  | [], d :: y, _, _, _, hy, h => by
    simp at h; exact absurd h.1 (by simp at hy; exact hy.1)
  | d :: x, [], _, _, hx, _, h => by
    simp at h; exact absurd h.1.symm (by simp at hx; exact hx.1)
  | d :: x, e :: y, _, _, hx, hy, h => by
    simp at h hx hy
    obtain ⟨h1, h2⟩ := split_eq hx.2 hy.2 h.2
    exact ⟨by rw [h.1, h1], h2⟩

private theorem takeWhile_rev {n : Str} (hn : '.' ∉ n) (d : Str) :
    ((d ++ '.' :: n).reverse.takeWhile (· != '.')) = n.reverse
    ∧ ((d ++ '.' :: n).reverse.dropWhile (· != '.')) = '.' :: d.reverse := by
  have e : (d ++ '.' :: n).reverse = n.reverse ++ '.' :: d.reverse := by simp
  have : ∀ x ∈ n.reverse, (x != '.') = true := by
    intro x hx
    have : x ≠ '.' := fun e => hn (e ▸ List.mem_reverse.1 hx)
    simpa using this
  rw [e]
  constructor
  · rw [List.takeWhile_append_of_pos this]; simp
  · rw [List.dropWhile_append_of_pos this]; simp

theorem C118.lastPart_dot {n : Str} (hn : '.' ∉ n) (d : Str) : lastPart (d ++ '.' :: n) = n := by
  unfold lastPart; rw [(takeWhile_rev hn d).1, List.reverse_reverse]

theorem C118.firstPart_dot {n : Str} (hn : '.' ∉ n) (d : Str) : firstPart (d ++ '.' :: n) = d := by
  unfold firstPart; rw [(takeWhile_rev hn d).2]; simp

private theorem upper_dot {c : Char} (h : c ≠ '.') : c.toUpper ≠ '.' := by
  intro e
  unfold Char.toUpper at e
  split at e
  · rename_i h1
    have := congrArg Char.val e
    simp only at this
    have h2 := congrArg UInt32.toNat this
    have h3 := h1.1
    have h4 := h1.2
    rw [UInt32.le_iff_toNat_le] at h3
    rw [UInt32.le_iff_toNat_le] at h4
    simp at h2 h3 h4
    omega
  · exact h e

theorem C118.cap_dot {n : Str} (h : '.' ∉ n) : '.' ∉ cap n := by
  cases n with
  | nil => exact h
  | cons c s =>
    simp only [List.mem_cons, not_or] at h
    simp only [cap, List.mem_cons, not_or]
    exact ⟨fun e => upper_dot (Ne.symm h.1) e.symm, h.2⟩

mutual
/-- Keys and functors in order. -/
private def pairsM (d : Str) : Mem → List (Str × Func)
  | .data n _ p => [(d ++ '.' :: n, .gs p), (d ++ '.' :: (sGet ++ cap n), .gs p), (d ++ '.' :: (sSet ++ cap n), .gs p)]
  | .cst n _ => [(d ++ '.' :: n, .dangling), (d ++ '.' :: (sGet ++ cap n), .dangling), (d ++ '.' :: (sSet ++ cap n), .dangling)]
  | .meth n f => [(d ++ '.' :: n, .fn f)]
  | .nest n ms => pairsL (d ++ '.' :: n) ms
private def pairsL (d : Str) : List Mem → List (Str × Func)
  | [] => []
  | m :: ms => pairsM d m ++ pairsL d ms
end

private def ins (r : List (Str × Func)) (e : Str × Func) : List (Str × Func) :=
  if r.any (fun x => x.1 == e.1) then r else r ++ [e]

private theorem addFunctor_reg (j : Java) (k : Str) (f : Func) : (addFunctor j k f).reg = ins j.reg (k, f) := by
  unfold addFunctor ins; split <;> rfl

private theorem addFunctor_methods (j : Java) (k : Str) (f : Func) : (addFunctor j k f).methods = j.methods := by
  unfold addFunctor; split <;> rfl

mutual
private theorem regMem_reg (d : Str) : ∀ (m : Mem) (j : Java), Good [m] →
    (regMem d m j).reg = (pairsM d m).foldl ins j.reg
  | .data n t p, j, h => by
    have hn : '.' ∉ n := by cases h with | mk _ _ h _ => exact h (.data n t p) (by simp)
    simp only [regMem, regData, lastPart_dot hn, firstPart_dot hn, addFunctor_reg, addMethod, pairsM, List.foldl]
  | .cst n t, j, h => by
    have hn : '.' ∉ n := by cases h with | mk _ _ h _ => exact h (.cst n t) (by simp)
    simp only [regMem, regData, lastPart_dot hn, firstPart_dot hn, addFunctor_reg, addMethod, pairsM, List.foldl]
  | .meth n f, j, _ => by
    simp only [regMem, addFunctor_reg, addMethod, pairsM, List.foldl]
  | .nest n ms, j, h => by
    simp only [regMem, pairsM]
    cases h with
    | mk _ _ _ h => exact regMems_reg _ ms j (h n ms (by simp))
private theorem regMems_reg (d : Str) : ∀ (ms : List Mem) (j : Java), Good ms →
    (regMems d ms j).reg = (pairsL d ms).foldl ins j.reg
  | [], j, _ => by simp only [regMems, pairsL, List.foldl]
  | m :: ms, j, h => by
    have h1 : Good [m] ∧ Good ms := by
      cases h with
      | mk _ ha hb hc =>
        rw [List.flatMap_cons, List.nodup_append] at ha
        exact ⟨.mk _ (by simpa using ha.1) (fun x hx => hb x (by simp at hx; simp [hx])) fun n ms' hx => hc n ms' (by simp at hx; simp [hx]),
          .mk _ ha.2.1 (fun x hx => hb x (by simp [hx])) fun n ms' hx => hc n ms' (by simp [hx])⟩
    simp only [regMems, pairsL, List.foldl_append]
    rw [regMems_reg d ms _ h1.2, regMem_reg d m j h1.1]
end

private theorem offers_dot {m : Mem} (h : '.' ∉ nameOf m) : ∀ x ∈ offers m, '.' ∉ x := by
  cases m <;> simp only [offers, nameOf] at h ⊢ <;> intro x hx <;> simp at hx
  · rcases hx with rfl | rfl | rfl
    · exact h
    · simp [cap_dot h]
    · simp [cap_dot h]
  · rcases hx with rfl | rfl | rfl
    · exact h
    · simp [cap_dot h]
    · simp [cap_dot h]
  · subst hx; exact h
  · subst hx; exact h

/-- A key begins with one of the names. -/
private theorem key_form (d : Str) : ∀ (m : Mem) (k : Str), k ∈ (pairsM d m).map (·.1) →
    ∃ x ∈ offers m, ∃ r, k = d ++ '.' :: (x ++ r) ∧ (r = [] ∨ ∃ r', r = '.' :: r')
  | .data n t p, k, h => by
    simp [pairsM] at h
    rcases h with rfl | rfl | rfl
    · exact ⟨n, by simp [offers], [], by simp, .inl rfl⟩
    · exact ⟨sGet ++ cap n, by simp [offers, sGet], [], by simp, .inl rfl⟩
    · exact ⟨sSet ++ cap n, by simp [offers, sSet], [], by simp, .inl rfl⟩
  | .cst n t, k, h => by
    simp [pairsM] at h
    rcases h with rfl | rfl | rfl
    · exact ⟨n, by simp [offers], [], by simp, .inl rfl⟩
    · exact ⟨sGet ++ cap n, by simp [offers, sGet], [], by simp, .inl rfl⟩
    · exact ⟨sSet ++ cap n, by simp [offers, sSet], [], by simp, .inl rfl⟩
  | .meth n f, k, h => by
    simp [pairsM] at h
    subst h
    exact ⟨n, by simp [offers], [], by simp, .inl rfl⟩
  | .nest n ms, k, h => by
    simp only [pairsM] at h
    obtain ⟨r, rfl⟩ := pre (d ++ '.' :: n) ms k h
    exact ⟨n, by simp [offers], '.' :: r, by simp, .inr ⟨r, rfl⟩⟩
where
  pre (d : Str) : ∀ (ms : List Mem) (k : Str), k ∈ (pairsL d ms).map (·.1) → ∃ r, k = d ++ '.' :: r
    | [], k, h => by simp [pairsL] at h
    | m :: ms, k, h => by
      simp only [pairsL, List.map_append, List.mem_append] at h
      rcases h with h | h
      · obtain ⟨x, _, r, rfl, _⟩ := key_form d m k h
        exact ⟨_, rfl⟩
      · exact pre d ms k h

private theorem pre (d : Str) (ms : List Mem) (k : Str) (h : k ∈ (pairsL d ms).map (·.1)) : ∃ r, k = d ++ '.' :: r :=
  key_form.pre d ms k h

private theorem keyL_form (d : Str) (ms : List Mem) (k : Str) (h : k ∈ (pairsL d ms).map (·.1)) :
    ∃ m ∈ ms, k ∈ (pairsM d m).map (·.1) := by
  induction ms with
  | nil => simp [pairsL] at h
  | cons m ms ih =>
    simp only [pairsL, List.map_append, List.mem_append] at h
    rcases h with h | h
    · exact ⟨m, by simp, h⟩
    · obtain ⟨m', h1, h2⟩ := ih h
      exact ⟨m', by simp [h1], h2⟩

private theorem same_head {x y r s : Str} (hx : '.' ∉ x) (hy : '.' ∉ y) (hr : r = [] ∨ ∃ r', r = '.' :: r')
    (hs : s = [] ∨ ∃ s', s = '.' :: s') (h : x ++ r = y ++ s) : x = y := by
  rcases hr with rfl | ⟨r', rfl⟩ <;> rcases hs with rfl | ⟨s', rfl⟩
  · simpa using h
  · rw [List.append_nil] at h
    exact absurd (h ▸ (by simp : '.' ∈ y ++ '.' :: s')) hx
  · rw [List.append_nil] at h
    exact absurd (h ▸ (by simp : '.' ∈ x ++ '.' :: r')) hy
  · exact (split_eq hx hy h).1

private theorem keys_nodup {ms : List Mem} (h : Good ms) : ∀ d, ((pairsL d ms).map (·.1)).Nodup := by
  induction h with
  | mk ms hn hd _ ih =>
    intro d
    suffices H : ∀ l : List Mem, (∀ m ∈ l, m ∈ ms) → (l.flatMap offers).Nodup → ((pairsL d l).map (·.1)).Nodup from
      H ms (fun _ h => h) hn
    intro l
    induction l with
    | nil => intro _ _; simp [pairsL]
    | cons m l ihl =>
      intro hl hnd
      rw [List.flatMap_cons, List.nodup_append] at hnd
      simp only [pairsL, List.map_append]
      rw [List.nodup_append]
      refine ⟨?_, ihl (fun x hx => hl x (by simp [hx])) hnd.2.1, ?_⟩
      · cases m with
        | data n t p =>
          have := hnd.1
          simp [offers, pairsM, sGet, sSet] at this ⊢
          exact this
        | cst n t =>
          have := hnd.1
          simp [offers, pairsM, sGet, sSet] at this ⊢
          exact this
        | meth n f => simp [pairsM]
        | nest n ms' =>
          simp only [pairsM]
          exact ih n ms' (hl _ (by simp)) _
      · intro a ha c hc e
        subst e
        obtain ⟨x, hx, r, h1, hr⟩ := key_form d m a ha
        obtain ⟨m', hm', hc'⟩ := keyL_form d l a hc
        obtain ⟨y, hy, s, h2, hs⟩ := key_form d m' a hc'
        rw [h1] at h2
        have h3 : x ++ r = y ++ s := by
          have := List.append_cancel_left h2
          simpa using this
        have := same_head (offers_dot (hd m (hl m (by simp))) x hx) (offers_dot (hd m' (hl m' (by simp [hm']))) y hy) hr hs h3
        exact hnd.2.2 x hx y (List.mem_flatMap.2 ⟨m', hm', hy⟩) this

private theorem ins_fresh : ∀ (l r : List (Str × Func)), ((r ++ l).map (·.1)).Nodup → l.foldl ins r = r ++ l
  | [], r, _ => by simp
  | e :: l, r, h => by
    have : r.any (fun x => x.1 == e.1) = false := by
      rw [Bool.eq_false_iff]
      intro ha
      rw [List.any_eq_true] at ha
      obtain ⟨x, hx, he⟩ := ha
      rw [List.map_append, List.nodup_append] at h
      exact h.2.2 x.1 (List.mem_map.2 ⟨x, hx, rfl⟩) e.1 (by simp) (by simpa using he)
    simp only [List.foldl, ins, this, Bool.false_eq_true, if_false]
    rw [ins_fresh l (r ++ [e]) (by simpa using h)]
    simp

private def pairsO : List (Str × List Mem) → List (Str × Func)
  | [] => []
  | e :: l => pairsL e.1 e.2 ++ pairsO l

private theorem keyO_form : ∀ (l : List (Str × List Mem)) (k : Str), k ∈ (pairsO l).map (·.1) →
    ∃ e ∈ l, ∃ r, k = e.1 ++ '.' :: r
  | [], _, h => by simp [pairsO] at h
  | e :: l, k, h => by
    simp only [pairsO, List.map_append, List.mem_append] at h
    rcases h with h | h
    · exact ⟨e, by simp, pre _ _ _ h⟩
    · obtain ⟨e', h1, h2⟩ := keyO_form l k h
      exact ⟨e', by simp [h1], h2⟩

private theorem keysO_nodup : ∀ (l : List (Str × List Mem)), (l.map (·.1)).Nodup → (∀ e ∈ l, '.' ∉ e.1 ∧ Good e.2) →
    ((pairsO l).map (·.1)).Nodup
  | [], _, _ => by simp [pairsO]
  | e :: l, hn, h => by
    simp only [pairsO, List.map_append]
    rw [List.nodup_append]
    simp only [List.map_cons, List.nodup_cons] at hn
    refine ⟨keys_nodup (h e (by simp)).2 _, keysO_nodup l hn.2 fun x hx => h x (by simp [hx]), ?_⟩
    intro a ha c hc hac
    subst hac
    obtain ⟨r, h1⟩ := pre _ _ _ ha
    obtain ⟨e', he', s, h2⟩ := keyO_form l a hc
    rw [h1] at h2
    have := (split_eq (h e (by simp)).1 (h e' (by simp [he'])).1 h2).1
    exact hn.1 (List.mem_map.2 ⟨e', he', this.symm⟩)

private theorem regObjs_reg : ∀ (l : List (Str × List Mem)) (j : Java), (∀ e ∈ l, '.' ∉ e.1 ∧ Good e.2) →
    (regObjs l j).reg = (pairsO l).foldl ins j.reg
  | [], _, _ => rfl
  | (o, ms) :: l, j, h => by
    simp only [regObjs, pairsO, List.foldl_append]
    rw [regObjs_reg l _ fun e he => h e (by simp [he]), regMems_reg o ms j (h (o, ms) (by simp)).2]

private theorem find_mem {l : List (Str × Func)} (hn : (l.map (·.1)).Nodup) {e : Str × Func} (he : e ∈ l) :
    l.find? (fun x => x.1 == e.1) = some e := by
  induction l with
  | nil => simp at he
  | cons a l ih =>
    simp only [List.map_cons, List.nodup_cons] at hn
    rcases List.mem_cons.1 he with rfl | he
    · simp
    · have : a.1 ≠ e.1 := fun h => hn.1 (h ▸ List.mem_map.2 ⟨e, he, rfl⟩)
      rw [List.find?_cons_of_neg (by simpa using this)]
      exact ih hn.2 he

private theorem pairsL_mem {d : Str} {ms : List Mem} {m : Mem} (h : m ∈ ms) : ∀ e ∈ pairsM d m, e ∈ pairsL d ms := by
  induction ms with
  | nil => simp at h
  | cons a ms ih =>
    intro e he
    simp only [pairsL, List.mem_append]
    rcases List.mem_cons.1 h with rfl | h
    · exact .inl he
    · exact .inr (ih h e he)

private theorem has_pairs {d : Str} {ms : List Mem} {d' : Str} {m : Mem} (h : Has d ms d' m) :
    ∀ e ∈ pairsM d' m, e ∈ pairsL d ms := by
  induction h with
  | here d ms m hm => exact pairsL_mem hm
  | deep d ms n ms' d' m hm _ ih =>
    intro e he
    refine pairsL_mem hm e ?_
    simp only [pairsM]
    exact ih e he

private theorem pairsO_mem {l : List (Str × List Mem)} {e : Str × List Mem} (h : e ∈ l) :
    ∀ x ∈ pairsL e.1 e.2, x ∈ pairsO l := by
  induction l with
  | nil => simp at h
  | cons a l ih =>
    intro x hx
    simp only [pairsO, List.mem_append]
    rcases List.mem_cons.1 h with rfl | h
    · exact .inl hx
    · exact .inr (ih h x hx)

/-- The functor found. -/
private theorem found {objs : List (Str × List Mem)} (hn : (objs.map (·.1)).Nodup) (ho : ∀ e ∈ objs, '.' ∉ e.1 ∧ Good e.2)
    {o : Str} {ms : List Mem} (h : (o, ms) ∈ objs) {d : Str} {m : Mem} (hm : Has o ms d m) {ml : List (Str × Str)}
    {k : Str} {f : Func} (hk : (k, f) ∈ pairsM d m) :
    (regObjs objs ⟨ml, []⟩).reg.find? (fun x => x.1 == k) = some (k, f) := by
  have hnd := keysO_nodup objs hn ho
  rw [regObjs_reg objs _ ho, ins_fresh _ _ (by simpa using hnd), List.nil_append]
  exact find_mem hnd (pairsO_mem h _ (has_pairs hm _ hk))

private theorem applyN_take : ∀ (n : Nat) (f : List Int → Store → Int × Store) (a : List Int) (s : Store), n ≤ a.length →
    applyN n f a s = .ok (f (a.take n) s).1 (f (a.take n) s).2
  | 0, f, a, s, _ => by simp [applyN]
  | n + 1, f, a, s, h => by
    have h1 : a[n]? = some a[n] := List.getElem?_eq_getElem (by omega)
    simp only [applyN, h1]
    rw [applyN_take n _ a s (by omega)]
    rw [List.take_add_one, h1]; rfl

/-! ### C118 -/

/-- C118, partial: for any number of objects, every variable, of the object or of what is inside of it, is read and set under its
name, read by its getter and set by its setter, and nothing else changes.  It is partial: members that are to be found under the
same name are left out, and static constants, see the counterexamples. -/
theorem C118_variables_partial {objs : List (Str × List Mem)} (hn : (objs.map (·.1)).Nodup)
    (ho : ∀ e ∈ objs, '.' ∉ e.1 ∧ Good e.2) {o : Str} {ms : List Mem} (h : (o, ms) ∈ objs) {d n : Str} {t : Ty} {p : Nat}
    (hm : Has o ms d (.data n t p)) (ml : List (Str × Str)) (s : Store) (v : Int) :
    let j := regObjs objs ⟨ml, []⟩
    call j (d ++ '.' :: n) [] s = .ok (s p) s
    ∧ call j (d ++ '.' :: n) [v] s = .ok v (fun q => if q = p then v else s q)
    ∧ call j (d ++ '.' :: ("get".toList ++ cap n)) [] s = .ok (s p) s
    ∧ call j (d ++ '.' :: ("set".toList ++ cap n)) [v] s = .ok v (fun q => if q = p then v else s q) := by
  intro j
  have h1 := found hn ho h hm (ml := ml) (k := d ++ '.' :: n) (f := .gs p) (by simp [pairsM])
  have h2 := found hn ho h hm (ml := ml) (k := d ++ '.' :: (sGet ++ cap n)) (f := .gs p) (by simp [pairsM])
  have h3 := found hn ho h hm (ml := ml) (k := d ++ '.' :: (sSet ++ cap n)) (f := .gs p) (by simp [pairsM])
  refine ⟨?_, ?_, ?_, ?_⟩
  · unfold call; rw [h1]
  · unfold call; rw [h1]
  · unfold call; rw [show "get".toList = sGet from rfl, h2]
  · unfold call; rw [show "set".toList = sSet from rfl, h3]

/-- C118, partial: a member function is called with the arguments given, in order; those too many are ignored. -/
theorem C118_functions_partial {objs : List (Str × List Mem)} (hn : (objs.map (·.1)).Nodup)
    (ho : ∀ e ∈ objs, '.' ∉ e.1 ∧ Good e.2) {o : Str} {ms : List Mem} (h : (o, ms) ∈ objs) {d n : Str} {f : Fn}
    (hm : Has o ms d (.meth n f)) (ml : List (Str × Str)) (s : Store) (args more : List Int) (ha : args.length = f.args.length) :
    call (regObjs objs ⟨ml, []⟩) (d ++ '.' :: n) (args ++ more) s = .ok (f.run args s).1 (f.run args s).2 := by
  have h1 := found hn ho h hm (ml := ml) (k := d ++ '.' :: n) (f := .fn f) (by simp [pairsM])
  unfold call
  rw [h1]
  simp only
  rw [applyN_take _ _ _ _ (by simp [ha]), ← ha, List.take_left]

private theorem regMems_methods (d : Str) : ∀ (ms : List Mem) (j : Java), (∀ m ∈ ms, '.' ∉ nameOf m) → (∀ n ms', .nest n ms' ∉ ms) →
    (regMems d ms j).methods = j.methods ++ ms.flatMap declares
  | [], j, _, _ => by simp [regMems]
  | m :: ms, j, hd, hn => by
    simp only [regMems]
    rw [regMems_methods d ms _ (fun x hx => hd x (by simp [hx])) fun n ms' hx => hn n ms' (by simp [hx])]
    have h1 := hd m (by simp)
    cases m with
    | data n t p =>
      simp [regMem, regData, addFunctor_methods, addMethod, lastPart_dot (show '.' ∉ n from h1), declares, descr, letter_sig, sGet, sSet]
    | cst n t =>
      simp [regMem, regData, addFunctor_methods, addMethod, lastPart_dot (show '.' ∉ n from h1), declares, descr, letter_sig, sGet, sSet]
    | meth n f =>
      simp [regMem, addFunctor_methods, addMethod, lastPart_dot (show '.' ∉ n from h1), declares, descr_sig]
    | nest n ms' => exact absurd (by simp) (hn n ms')

/-- C118, partial: the class file declares what is to be found, and no two methods with the same name and descriptor, as Java
requires; classes without members of class type. -/
theorem C118_declared_partial {ms : List Mem} (hg : Good ms) (hn : ∀ n ms', .nest n ms' ∉ ms) (d : Str) :
    (regMems d ms ⟨[], []⟩).methods = ms.flatMap declares ∧ (regMems d ms ⟨[], []⟩).methods.Nodup := by
  cases hg with
  | mk _ h1 h2 h3 =>
    clear h3
    have e := regMems_methods d ms ⟨[], []⟩ h2 hn
    rw [List.nil_append] at e
    refine ⟨e, ?_⟩
    rw [e]
    have : (ms.flatMap declares).map (·.1) = ms.flatMap offers := by
      rw [List.map_flatMap]
      clear e h1 h2
      induction ms with
      | nil => rfl
      | cons m ms ih =>
        simp only [List.flatMap_cons]
        rw [ih fun n ms' hx => hn n ms' (by simp [hx])]
        cases m with
        | nest n ms' => exact absurd (by simp) (hn n ms')
        | _ => rfl
    rw [← this] at h1
    exact (List.pairwise_map.1 h1).imp fun h e => h (congrArg _ e)

/-- An object `a` with a variable `x`, a method `f` adding its argument to it, and an object `b` inside with a variable `x` too. -/
private def exMs : List Mem :=
  [.data ['x'] .int 0, .meth ['f'] ⟨[.int, .int], some .int, fun a s => (s 0 + a.foldl (2 * · + ·) 0, s)⟩, .nest ['b'] [.data ['x'] .int 1]]

private theorem exGood : Good exMs := by
  refine .mk _ (by decide) (by decide) ?_
  intro n ms' h
  simp [exMs] at h
  obtain ⟨rfl, rfl⟩ := h
  exact .mk _ (by decide) (by decide) (by simp)

example (s : Store) : call (regObjs [(['a'], exMs)] ⟨[], []⟩) "a.b.setX".toList [5] s = .ok 5 (fun q => if q = 1 then 5 else s q) := by
  have := (C118_variables_partial (objs := [(['a'], exMs)]) (by simp) (by
    intro e he
    simp at he
    subst he
    exact ⟨by decide, exGood⟩) (List.mem_singleton.2 rfl) (d := "a.b".toList) (n := ['x']) (t := .int) (p := 1)
    (.deep _ _ ['b'] [.data ['x'] .int 1] _ _ (by simp [exMs]) (.here _ _ _ (by simp))) [] s 5).2.2.2
  exact this

example (s : Store) : call (regObjs [(['a'], exMs)] ⟨[], []⟩) "a.f".toList [3, 4] s = .ok (s 0 + 10) s := by
  have := C118_functions_partial (objs := [(['a'], exMs)]) (by simp) (by
    intro e he
    simp at he
    subst he
    exact ⟨by decide, exGood⟩) (List.mem_singleton.2 rfl) (d := ['a']) (n := ['f'])
    (f := ⟨[.int, .int], some .int, fun a s => (s 0 + a.foldl (2 * · + ·) 0, s)⟩)
    (.here _ _ _ (by simp [exMs])) [] s [3, 4] [] rfl
  simpa using this

/-- C118 fails for static constants: every use of one is undefined, the variable registered having been destroyed. -/
theorem C118_fails_static (o n : Str) (hn : '.' ∉ n) (t : Ty) (args : List Int) (s : Store) :
    call (regMems o [.cst n t] ⟨[], []⟩) (o ++ '.' :: n) args s = .ub
    ∧ call (regMems o [.cst n t] ⟨[], []⟩) (o ++ '.' :: ("get".toList ++ cap n)) args s = .ub := by
  have hg : Good [.cst n t] ∨ ¬ Good [.cst n t] := Classical.em _
  have hr : (regMems o [.cst n t] ⟨[], []⟩).reg = ([(o ++ '.' :: n, Func.dangling), (o ++ '.' :: (sGet ++ cap n), .dangling),
      (o ++ '.' :: (sSet ++ cap n), .dangling)] : List (Str × Func)).foldl ins [] := by
    simp only [regMems, regMem, regData, lastPart_dot hn, firstPart_dot hn, addFunctor_reg, addMethod, List.foldl]
  have hall : ∀ (l r : List (Str × Func)), (∀ e ∈ l, e.2 = .dangling) → (∀ e ∈ r, e.2 = .dangling) →
      ∀ e ∈ l.foldl ins r, e.2 = .dangling := by
    intro l
    induction l with
    | nil => intro r _ h; exact h
    | cons a l ih =>
      intro r h1 h2
      refine ih _ (fun e he => h1 e (by simp [he])) ?_
      intro e he
      unfold ins at he
      split at he
      · exact h2 e he
      · rcases List.mem_append.1 he with he | he
        · exact h2 e he
        · simp at he; subst he; exact h1 _ (by simp)
  have hd := hall [(o ++ '.' :: n, Func.dangling), (o ++ '.' :: (sGet ++ cap n), .dangling), (o ++ '.' :: (sSet ++ cap n), .dangling)] []
    (by intro e he; simp at he; rcases he with rfl | rfl | rfl <;> rfl) (by simp)
  rw [← hr] at hd
  have key : ∀ name, call (regMems o [.cst n t] ⟨[], []⟩) name args s = .ub := by
    intro name
    unfold call
    cases hf : (regMems o [.cst n t] ⟨[], []⟩).reg.find? (fun e => e.1 == name) with
    | none => rfl
    | some e =>
      have := hd e (List.mem_of_find?_eq_some hf)
      obtain ⟨k, f⟩ := e
      simp only at this
      subst this
      rfl
  exact ⟨key _, key _⟩

/-- C118 fails for names that differ only in the case of the first letter: the getter for both is that of the first, also where the
other one is meant. -/
theorem C118_fails_case (o n n' : Str) (hn : '.' ∉ n) (t t' : Ty) (p p' : Nat) (hc : cap n = cap n')
    (h1 : n ≠ "get".toList ++ cap n) (s : Store) :
    call (regMems o [.data n t p, .data n' t' p'] ⟨[], []⟩) (o ++ '.' :: ("get".toList ++ cap n')) [] s = .ok (s p) s := by
  rw [← hc]
  have hf : ∀ (j : Java) (d : Str) (m : Mem) (k : Str) (e : Str × Func), j.reg.find? (fun e => e.1 == k) = some e →
      (∀ n ms, m ≠ .nest n ms) → (regMem d m j).reg.find? (fun e => e.1 == k) = some e := by
    have hi : ∀ (r : List (Str × Func)) (x e : Str × Func) (k : Str), r.find? (fun e => e.1 == k) = some e →
        (ins r x).find? (fun e => e.1 == k) = some e := by
      intro r x e k h
      unfold ins
      split
      · exact h
      · rw [List.find?_append, h]; rfl
    intro j d m k e h hm
    cases m with
    | nest n ms => exact absurd rfl (hm n ms)
    | data n t p =>
      simp only [regMem, regData, addFunctor_reg, addMethod]
      exact hi _ _ _ _ (hi _ _ _ _ (hi _ _ _ _ h))
    | cst n t =>
      simp only [regMem, regData, addFunctor_reg, addMethod]
      exact hi _ _ _ _ (hi _ _ _ _ (hi _ _ _ _ h))
    | meth n f =>
      simp only [regMem, addFunctor_reg, addMethod]
      exact hi _ _ _ _ h
  have hne : (o ++ '.' :: n == o ++ '.' :: (sGet ++ cap n)) = false := by
    rw [beq_eq_false_iff_ne]
    intro e
    have := List.append_cancel_left e
    simp only [List.cons.injEq, true_and] at this
    exact h1 this
  have h0 : (regMem o (.data n t p) ⟨[], []⟩).reg.find? (fun e => e.1 == o ++ '.' :: ("get".toList ++ cap n))
      = some (o ++ '.' :: ("get".toList ++ cap n), .gs p) := by
    rw [show "get".toList = sGet from rfl]
    simp only [regMem, regData, lastPart_dot hn, firstPart_dot hn, addFunctor_reg, addMethod, ins, List.any_nil, Bool.false_eq_true,
      if_false, List.nil_append, List.any_cons, hne, Bool.or_false, List.cons_append]
    split <;> simp [hne]
  have := hf _ o (.data n' t' p') _ _ h0 (by simp)
  simp only [regMems]
  unfold call
  rw [this]

example : cap ['x'] = cap ['X'] := by decide

/-- C118 fails for overloaded functions: the one declared first is called, whatever the arguments. -/
theorem C118_fails_overload (o n : Str) (f g : Fn) (args : List Int) (s : Store) :
    call (regMems o [.meth n f, .meth n g] ⟨[], []⟩) (o ++ '.' :: n) args s
      = call (regMems o [.meth n f] ⟨[], []⟩) (o ++ '.' :: n) args s := by
  simp [regMems, regMem, addFunctor, addMethod, call]

/-- C118 fails with too few arguments: undefined. -/
theorem C118_fails_few (o n : Str) (f : Fn) (args : List Int) (s : Store) (h : args.length < f.args.length) :
    call (regMems o [.meth n f] ⟨[], []⟩) (o ++ '.' :: n) args s = .ub := by
  have : call (regMems o [.meth n f] ⟨[], []⟩) (o ++ '.' :: n) args s = applyN f.args.length f.run args s := by
    simp [regMems, regMem, addFunctor, addMethod, call]
  rw [this]
  obtain ⟨k, hk⟩ : ∃ k, f.args.length = k + 1 := ⟨f.args.length - 1, by omega⟩
  rw [hk]
  have h1 : args[k]? = none := List.getElem?_eq_none (by omega)
  simp only [applyN, h1]

/-- C118 fails for variables of class type: their members are declared as if they were those of the class, and twice if they have the
same name, which Java refuses. -/
theorem C118_fails_nested (o n m : Str) (hn : '.' ∉ n) (t : Ty) (p p' : Nat) :
    ¬ (regMems o [.data n t p, .nest m [.data n t p']] ⟨[], []⟩).methods.Nodup := by
  have : lastPart (o ++ '.' :: (m ++ '.' :: n)) = n := by
    rw [show o ++ '.' :: (m ++ '.' :: n) = (o ++ '.' :: m) ++ '.' :: n by simp, lastPart_dot hn]
  simp [regMems, regMem, regData, addFunctor_methods, addMethod, lastPart_dot hn, this]

/-- C118 fails for names that are not registered: undefined, rather than an exception. -/
theorem C118_fails_name (j : Java) (name : Str) (args : List Int) (s : Store) (h : name ∉ j.reg.map (·.1)) :
    call j name args s = .ub := by
  have : j.reg.find? (fun e => e.1 == name) = none := by
    rw [List.find?_eq_none]
    intro e he hk
    exact h (List.mem_map.2 ⟨e, he, by simpa using hk⟩)
  unfold call
  rw [this]

end Verif.JavaObj
