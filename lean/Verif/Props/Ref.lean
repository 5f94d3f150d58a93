import Verif.RefLemmas
/-
C15: reference counts.
-/
namespace Verif.Ref
open Verif.Graph (Out)

/-! ### Specification -/

/-- Number of live references denoting `o`. -/
def refs (st : St) (o : Nat) : Nat := (st.live.filter (fun l => st.item l == some o)).length

/-- refCount(), ref.h:77. -/
def refCount (st : St) (l : Nat) : Int := match st.item l with
  | none => 0
  | some o => match st.obj o with
    | none => 0
    | some ob => ob.count

/-- What the property asks of a state. -/
structure Good (st : St) : Prop where
  count : ∀ l ∈ st.live, ∀ o, st.item l = some o → refCount st l = refs st o
  null : ∀ l, st.item l = none → refCount st l = 0
  dangling : ∀ l ∈ st.live, ∀ o, st.item l = some o → st.obj o ≠ none
  once : st.log.Nodup
  destroyed : ∀ o, o ∈ st.log ↔ o < st.next ∧ refs st o = 0
  exist : ∀ o, st.obj o ≠ none ↔ o < st.next ∧ o ∉ st.log

theorem cnt_refs (st : St) (o : Nat) : cnt st none o = refs st o := by
  unfold cnt refs
  rw [List.countP_eq_length_filter]
  congr 1
  apply List.filter_congr
  intro l _
  by_cases e : st.item l = some o <;> simp [e]

theorem good_of {st : St} (hI : Inv st [] none) (hA : All st) : Good st := by
  have hex : ∀ o, st.obj o ≠ none ↔ o < st.next ∧ o ∉ st.log := by
    intro o
    constructor
    · intro h
      obtain ⟨ob, e⟩ := Option.ne_none_iff_exists'.1 h
      exact ⟨hI.olt o ob e, fun hm => h (hI.log o hm).2⟩
    · rintro ⟨h1, h2⟩ e; exact h2 (hA o h1 e)
  refine ⟨?_, fun l e => by simp [refCount, e], ?_, hI.logd, ?_, hex⟩
  · intro l hl o e
    obtain ⟨ob, e'⟩ := hI.ref l hl (by simp) o e
    have := (hI.count o ob e').1
    simp [refCount, e, e', this, cnt_refs]
  · intro l hl o e
    obtain ⟨ob, e'⟩ := hI.ref l hl (by simp) o e
    simp [e']
  · intro o
    constructor
    · intro hm
      refine ⟨(hI.log o hm).1, ?_⟩
      rw [← cnt_refs]
      apply Nat.eq_zero_of_not_pos
      intro hp
      unfold cnt at hp
      rw [List.countP_pos_iff] at hp
      obtain ⟨l, hl, hp⟩ := hp
      simp only [Bool.and_eq_true, decide_eq_true_eq] at hp
      obtain ⟨ob, e'⟩ := hI.ref l hl (by simp) o hp.2
      rw [(hI.log o hm).2] at e'; simp at e'
    · rintro ⟨h1, h2⟩
      apply Classical.byContradiction
      intro hm
      obtain ⟨ob, e⟩ := Option.ne_none_iff_exists'.1 ((hex o).2 ⟨h1, hm⟩)
      have := hI.count o ob e
      rw [cnt_refs, h2] at this
      simp at this; omega

theorem init_inv : Inv St.init [] none ∧ All St.init := by
  refine ⟨⟨by simp [St.init], by simp [St.init], by simp [St.init], by simp, by simp [St.init], by simp [St.init], by simp [St.init],
    by simp [St.init], by simp [St.init], by simp [St.init]⟩, by intro o h; simp [St.init] at h⟩

theorem bind_eq {α β : Type} {x : Out α} {f : α → Out β} {b : β} (h : x.bind f = .ok b) : ∃ a, x = .ok a ∧ f a = .ok b := by
  cases x <;> simp [Out.bind] at h; exact ⟨_, rfl, h⟩

theorem members_in {st : St} (hI : Inv st [] none) {o : Nat} {ob : Obj} (e : st.obj o = some ob) :
    ∀ o', some o' ∈ ob.mem.map st.item → ∃ ob', st.obj o' = some ob' := by
  intro o' h
  rw [List.mem_map] at h
  obtain ⟨m, hm, h⟩ := h
  exact hI.ref m (hI.mem o ob e m hm).1 (by simp) o' h

/-- Storing a new object in a reference, or in a new one. -/
theorem refdec_open {st st1 : St} (hI : Inv st [] none) {l : Nat} (hl : l ∈ st.live) (e : refdec st (st.item l) = .ok st1) (hl1 : l ∈ st1.live) :
    Inv st1 [] (some l) ∧ Sub st st1 := by
  exact drain_inv _ _ _ _ (hI.open hl) e (fun x hx => by cases hx; exact hl1)

theorem deref_inv {K l : Nat} {st st' : St} (hI : Inv st [] none) (hA : All st) (e : deref K l st = .ok st') :
    Inv st' [] none ∧ All st' ∧ l ∈ st'.live ∧ (∃ o, st'.item l = some o) := by
  unfold deref at e
  split at e
  · simp at e
  · rename_i hl
    have hl : l ∈ st.live := Decidable.not_not.1 hl
    split at e
    · rename_i o ho
      simp at e; subst e; exact ⟨hI, hA, hl, o, ho⟩
    · rename_i ho
      have h1 := hI.open hl
      rw [ho] at h1
      obtain ⟨st1, e1, i1, a1, x1, -⟩ := newItem_ok h1.dropNull hA (fun x hx => by cases hx; exact hI.lt l hl) (List.replicate K none)
        (by intro o h; simp at h)
      rw [e1] at e
      simp [Out.bind] at e; subst e
      exact ⟨i1.close (x1.live l hl), a1, x1.live l hl, st.next, by simp [upd]⟩

theorem inc_exists {x : Option Nat} {t t1 : St} (h1 : inc x t = .ok t1) :
    (t1.live = t.live ∧ t1.nloc = t.nloc) ∧ (∀ o, x = some o → ∃ ob, t.obj o = some ob) ∧ (∀ o, t1.obj o = none ↔ t.obj o = none) := by
  unfold inc at h1
  split at h1
  · simp at h1; subst h1; exact ⟨⟨rfl, rfl⟩, by simp, by simp⟩
  · split at h1
    · simp at h1
    · rename_i o ob hob
      simp at h1; subst h1
      refine ⟨⟨rfl, rfl⟩, ?_, ?_⟩
      · intro o' h; simp at h; subst h; exact ⟨ob, hob⟩
      · intro o'; simp only [upd]; split
        · rename_i e; subst e; simp [hob]
        · rfl

theorem copyMems_exists {l : Nat} : ∀ (xs : List (Option Nat)) (t t' : St) (ls : List Nat) (ow : Nat), copyMems ow xs t = .ok (ls, t') →
    (l < t.nloc → l ∈ t'.live → l ∈ t.live) ∧ ∀ o, some o ∈ xs → ∃ ob, t.obj o = some ob
  | [], t, t', ls, ow, h => by simp [copyMems] at h; rw [h.2]; exact ⟨fun _ h => h, by simp⟩
  | x :: xs, t, t', ls, ow, h => by
    simp only [copyMems] at h
    obtain ⟨t1, h1, h⟩ := bind_eq h
    obtain ⟨⟨ls2, t2⟩, h2, h⟩ := bind_eq h
    simp at h
    obtain ⟨hsame, hx, hn⟩ := inc_exists h1
    obtain ⟨k1, k2⟩ := copyMems_exists (l := l) xs _ _ _ _ h2
    refine ⟨fun hlt hm => ?_, fun o ho => ?_⟩
    · have := k1 (by simp [addLoc, hsame.2]; omega) (by rw [h.2]; exact hm)
      simp only [addLoc, List.mem_cons] at this
      rcases this with h | h
      · omega
      · rw [← hsame.1]; exact h
    · simp only [List.mem_cons] at ho
      rcases ho with ho | ho
      · exact hx o ho.symm
      · obtain ⟨ob, e⟩ := k2 o ho
        have e : t1.obj o = some ob := e
        exact Option.ne_none_iff_exists'.1 (fun e' => by rw [(hn o).2 e'] at e; simp at e)

theorem drain_nloc : ∀ (f : Nat) (w : List (Option Nat)) (t t' : St), drain f w t = .ok t' → t'.nloc = t.nloc
  | _, [], t, t', h => by simp [drain] at h; rw [h]
  | 0, _ :: _, _, _, h => by simp [drain] at h
  | f + 1, none :: w, t, t', h => by simp only [drain] at h; exact drain_nloc f w t t' h
  | f + 1, some o :: w, t, t', h => by
    unfold drain at h
    split at h
    · simp at h
    · split at h
      · have := drain_nloc f _ _ _ h; exact this
      · have := drain_nloc f _ _ _ h; exact this

theorem assignItem_inv {s s' : St} {l : Nat} {rd : St → Out (List (Option Nat))} (hI : Inv s [] none) (hA : All s) (hl : l ∈ s.live)
    (e : assignItem l rd s = .ok s') : Inv s' [] none ∧ All s' := by
  unfold assignItem at e
  obtain ⟨s1, e1, e⟩ := bind_eq e
  obtain ⟨xs, e2, e⟩ := bind_eq e
  obtain ⟨⟨o, s3⟩, e3, e⟩ := bind_eq e
  simp only at e
  split at e
  · simp at e
  · rename_i hl3
    have hl3 : l ∈ s3.live := Decidable.not_not.1 hl3
    simp at e; subst e
    obtain ⟨⟨ls, t⟩, h1, h2⟩ := bind_eq (x := copyMems s1.next xs { s1 with next := s1.next + 1 }) e3
    simp at h2
    have hn : s1.nloc = s.nloc := drain_nloc _ _ _ _ e1
    obtain ⟨k1, k2⟩ := copyMems_exists (l := l) _ _ _ _ _ h1
    have hl1 : l ∈ s1.live := k1 (by show l < s1.nloc; rw [hn]; exact hI.lt l hl) (by rw [← h2.2] at hl3; exact hl3)
    obtain ⟨i1, sub⟩ := refdec_open hI hl e1 hl1
    obtain ⟨s4, e4, i4, a4, x4, -⟩ := newItem_ok i1 (sub.all hA) (fun x hx => by cases hx; exact i1.lt l hl1) xs k2
    rw [e4] at e3
    simp at e3
    obtain ⟨rfl, rfl⟩ := e3
    exact ⟨i4.close (x4.live l hl1), a4⟩

theorem Inv.swap {st : St} (hI : Inv st [] none) {a b : Nat} (ha : a ∈ st.live) (hb : b ∈ st.live) :
    Inv { st with item := upd (upd st.item b (st.item a)) a (st.item b) } [] none := by
  refine ⟨hI.nodup, hI.lt, ?_, by simp, ?_, hI.memd, hI.mem, hI.olt, hI.logd, hI.log⟩
  · intro l hl _ o ho
    simp only [upd] at ho
    split at ho
    · exact hI.ref b hb (by simp) o ho
    · split at ho
      · exact hI.ref a ha (by simp) o ho
      · exact hI.ref l hl (by simp) o ho
  · intro o ob ho
    have h1 := hI.count o ob ho
    suffices h : cnt { st with item := upd (upd st.item b (st.item a)) a (st.item b) } none o = cnt st none o by rw [h]; exact h1
    unfold cnt
    by_cases hab : a = b
    · subst hab
      apply List.countP_congr
      intro x _
      simp only [upd]
      by_cases e : x = a <;> simp [e]
    · simp only [ne_eq, reduceCtorEq, not_false_eq_true, decide_true, Bool.true_and]
      have key : ∀ p : Nat → Bool, st.live.countP p = (if p a then 1 else 0) + ((if p b then 1 else 0) +
          st.live.countP (fun x => decide (x ≠ b) && (decide (x ≠ a) && p x))) := by
        intro p
        rw [countP_split hI.nodup ha, countP_split hI.nodup hb]
        simp [Ne.symm hab]
      rw [key, key (fun l => decide (st.item l = some o))]
      have : st.live.countP (fun x => decide (x ≠ b) && (decide (x ≠ a) && decide (upd (upd st.item b (st.item a)) a (st.item b) x = some o)))
          = st.live.countP (fun x => decide (x ≠ b) && (decide (x ≠ a) && decide (st.item x = some o))) := by
        apply List.countP_congr
        intro x _
        by_cases e1 : x = a
        · simp [e1]
        · by_cases e2 : x = b
          · simp [e2]
          · simp [upd, e1, e2]
      rw [this]
      simp only [upd, if_true, Ne.symm hab, if_false]
      omega

theorem Inv.remove {st : St} (hI : Inv st [] none) {l : Nat} (hl : l ∈ st.live) (ho : st.own l = none) :
    Inv { st with live := st.live.filter (· ≠ l) } [st.item l] none := by
  have h1 := hI.open hl
  refine ⟨List.Nodup.sublist List.filter_sublist hI.nodup, fun x hx => hI.lt x (List.mem_filter.1 hx).1, ?_, h1.wref, ?_, hI.memd, ?_, hI.olt, hI.logd, hI.log⟩
  · intro x hx _; exact hI.ref x (List.mem_filter.1 hx).1 (by simp)
  · intro o ob h
    have := h1.count o ob h
    suffices hs : cnt { st with live := st.live.filter (· ≠ l) } none o = cnt st (some l) o by rw [hs]; exact this
    unfold cnt
    rw [List.countP_filter]
    apply List.countP_congr
    intro x _
    simp [and_comm]
  · intro o ob h m hm
    obtain ⟨q1, q2⟩ := hI.mem o ob h m hm
    refine ⟨List.mem_filter.2 ⟨q1, ?_⟩, q2⟩
    simp; rintro rfl; rw [ho] at q2; simp at q2

/-- Every operation that has a defined result keeps the invariant. -/
theorem step_inv (K : Nat) (op : Op) {st st' : St} (hI : Inv st [] none) (hA : All st) (e : step K op st = .ok st') : Inv st' [] none ∧ All st' := by
  have addNull : ∀ {s : St} {w h}, Inv s w h → Inv s (none :: w) h := by
    intro s w h i
    exact ⟨i.nodup, i.lt, i.ref, fun o ho => i.wref o (by simpa using ho), fun o ob ho => by simpa using i.count o ob ho,
      i.memd, i.mem, i.olt, i.logd, i.log⟩
  cases op with
  | new =>
    simp only [step, Out.ok.injEq] at e; subst e
    exact ⟨addLoc_ok (addNull hI) (by simp) none, hA⟩
  | copy s =>
    simp only [step] at e
    split at e
    · simp at e
    · rename_i hs
      have hs : s ∈ st.live := Decidable.not_not.1 hs
      obtain ⟨s1, e1, e⟩ := bind_eq e
      obtain ⟨s2, e2, i2, x2, l2, n2, t2, w2, p2, o2⟩ := inc_ok hI (st.item s) (hI.ref s hs (by simp))
      rw [e1] at e2; cases e2
      simp at e; subst e
      rw [t2]
      refine ⟨addLoc_ok i2 (by simp) none, ?_⟩
      intro o ho h
      have ho : o < s1.next := ho
      have : o ∈ st.log := hA o (by omega) ((o2 o).1 h)
      show o ∈ s1.log
      rw [x2.log]; exact this
  | make =>
    simp only [step] at e
    obtain ⟨s1, e1, i1, a1, x1, -⟩ := newItem_ok hI hA (by simp) (List.replicate K none) (by intro o h; simp at h)
    rw [e1] at e
    simp [Out.bind] at e; subst e
    exact ⟨addLoc_ok i1 (by simp) none, a1⟩
  | makeOf s =>
    simp only [step] at e
    obtain ⟨s1, e1, e⟩ := bind_eq e
    obtain ⟨i1, a1, -, -⟩ := deref_inv hI hA e1
    obtain ⟨xs, e2, e⟩ := bind_eq e
    have hxs : ∀ o', some o' ∈ xs → ∃ ob', s1.obj o' = some ob' := by
      unfold members at e2
      split at e2
      · simp at e2
      · unfold membersOf at e2
        split at e2
        · simp at e2
        · rename_i ob ho
          simp at e2; subst e2; exact members_in i1 ho
    obtain ⟨s3, e3, i3, a3, x3, -⟩ := newItem_ok i1 a1 (by simp) xs hxs
    rw [e3] at e
    simp [Out.bind] at e; subst e
    exact ⟨addLoc_ok i3 (by simp) none, a3⟩
  | assign l s =>
    simp only [step] at e
    split at e
    · simp at e
    · rename_i hls
      simp only [not_or, Decidable.not_not] at hls
      split at e
      · simp at e; subst e; exact ⟨hI, hA⟩
      · rename_i hne
        obtain ⟨s1, e1, e⟩ := bind_eq e
        split at e
        · simp at e
        · rename_i hls1
          simp only [not_or, Decidable.not_not] at hls1
          obtain ⟨i1, sub⟩ := refdec_open hI hls.1 e1 hls1.1
          have hsl : s ≠ l := by rintro rfl; exact hne rfl
          obtain ⟨s2, e2, i2, x2, l2, n2, t2, w2, p2, o2⟩ := inc_ok i1 (s1.item s) (i1.ref s hls1.2 (by simp [hsl]))
          rw [e2] at e
          simp [Out.bind] at e; subst e
          rw [t2]
          have hc := Inv.close i2 (by rw [l2]; exact hls1.1)
          rw [t2] at hc
          refine ⟨hc, ?_⟩
          intro o ho h
          have ho : o < s2.next := ho
          have : o ∈ s1.log := sub.all hA o (by omega) ((o2 o).1 h)
          show o ∈ s2.log
          rw [x2.log]; exact this
  | assignVal l =>
    simp only [step] at e
    split at e
    · simp at e
    · rename_i hl
      have hl : l ∈ st.live := Decidable.not_not.1 hl
      exact assignItem_inv hI hA hl e
  | assignOf l s =>
    simp only [step] at e
    split at e
    · simp at e
    · rename_i hls
      obtain ⟨s1, e1, e⟩ := bind_eq e
      obtain ⟨i1, a1, -, -⟩ := deref_inv hI hA e1
      simp only [not_or, Decidable.not_not] at hls
      have hl1 : l ∈ s1.live := by
        unfold deref at e1
        rw [if_neg (by simpa using hls.2)] at e1
        split at e1
        · simp at e1; subst e1; exact hls.1
        · rename_i ho
          have h1 := hI.open hls.2
          rw [ho] at h1
          obtain ⟨st1, e2, i2, a2, x2, -⟩ := newItem_ok h1.dropNull hA (fun x hx => by cases hx; exact hI.lt s hls.2) (List.replicate K none)
            (by intro o h; simp at h)
          rw [e2] at e1
          simp [Out.bind] at e1; subst e1
          exact x2.live l hls.1
      split at e
      · simp at e
      · rename_i o ho
        exact assignItem_inv i1 a1 hl1 e
  | deref l => exact (fun h => ⟨h.1, h.2.1⟩) (deref_inv hI hA e)
  | nullify l =>
    simp only [step] at e
    split at e
    · simp at e
    · rename_i hl
      have hl : l ∈ st.live := Decidable.not_not.1 hl
      obtain ⟨s1, e1, e⟩ := bind_eq e
      split at e
      · simp at e
      · rename_i hl1
        have hl1 : l ∈ s1.live := Decidable.not_not.1 hl1
        obtain ⟨i1, sub⟩ := refdec_open hI hl e1 hl1
        simp at e; subst e
        exact ⟨i1.closeNull hl1, sub.all hA⟩
  | swap a b =>
    simp only [step] at e
    split at e
    · simp at e
    · rename_i hab
      simp only [not_or, Decidable.not_not] at hab
      simp only [Out.ok.injEq] at e; subst e
      exact ⟨hI.swap hab.1 hab.2, hA⟩
  | destroy l =>
    simp only [step] at e
    split at e
    · simp at e
    · rename_i hl
      simp only [not_or, Decidable.not_not, ne_eq] at hl
      obtain ⟨i1, s1⟩ := drain_inv _ _ _ _ (hI.remove hl.1 hl.2) e (by simp)
      exact ⟨i1, s1.all hA⟩

theorem run_inv (K : Nat) : ∀ (ops : List Op) (st st' : St), Inv st [] none → All st → run K ops st = .ok st' → Inv st' [] none ∧ All st'
  | [], st, st', hI, hA, e => by simp [run] at e; subst e; exact ⟨hI, hA⟩
  | op :: ops, st, st', hI, hA, e => by
    simp only [run] at e
    obtain ⟨s1, e1, e⟩ := bind_eq e
    obtain ⟨i1, a1⟩ := step_inv K op hI hA e1
    exact run_inv K ops s1 st' i1 a1 e

/-- C15: after any program with defined behaviour, the count of every object is the number of live references to it, objects without
references have been destroyed, exactly once, and no live reference denotes a destroyed object. -/
theorem C15_counts (K : Nat) (ops : List Op) (st : St) (h : run K ops St.init = .ok st) : Good st := by
  obtain ⟨i, a⟩ := run_inv K ops _ _ init_inv.1 init_inv.2 h
  exact good_of i a

/-- References an operation touches; the one it overwrites. -/
def Op.uses : Op → List Nat
  | .new | .make => []
  | .copy s | .makeOf s => [s]
  | .assign l s | .assignOf l s => [l, s]
  | .assignVal l | .deref l | .nullify l | .destroy l => [l]
  | .swap a b => [a, b]

def Op.target : Op → Option Nat
  | .assign l _ | .assignVal l | .assignOf l _ | .nullify l => some l
  | _ => none

/-- The program keeps every reference the operation touches alive without the help of the one that is overwritten (the reference
is a variable, or a member of an object another reference keeps alive), only variables are destroyed explicitly, and `l = *s` is not used
with `l` being `s` or part of `*s`. -/
structure Legal (st : St) (op : Op) : Prop where
  held : ∀ l ∈ op.uses, Held st op.target l
  var : ∀ l, op = .destroy l → st.own l = none
  alias : ∀ l s, op = .assignOf l s → s ≠ l ∧ (st.item s ≠ none → st.own l ≠ st.item s)

theorem Held.ext {st st' : St} {w h l} (hI : Inv st w h) (x : Ext st st') (hl : Held st h l) : Held st' h l := by
  induction hl with
  | root h1 h2 => exact .root (x.live _ h1) (by rw [x.own _ (hI.lt _ h1)]; exact h2)
  | mem h1 h2 h3 h4 h5 ih =>
    obtain ⟨ob', e, m⟩ := x.obj _ _ h4
    exact .mem ih h2 (by rw [x.item _ (hI.lt _ (h1.live hI))]; exact h3) e (by rw [m]; exact h5)

theorem Inv.hole {st : St} (hI : Inv st [] none) (h : Option Nat) (hh : ∀ l, h = some l → st.item l = none) : Inv st [] h := by
  refine ⟨hI.nodup, hI.lt, fun l hl _ => hI.ref l hl (by simp), by simp, fun o ob e => ?_, hI.memd, hI.mem, hI.olt, hI.logd, hI.log⟩
  have := hI.count o ob e
  suffices hs : cnt st h o = cnt st none o by rw [hs]; exact this
  unfold cnt
  apply List.countP_congr
  intro x _
  cases h with
  | none => simp
  | some l =>
    have := hh l rfl
    by_cases e : x = l
    · subst e; simp [this]
    · simp [e]

/-- Liveness of held references does not depend on which invariant is at hand. -/
theorem Held.live' {st h l} (hI : Inv st [] none) (hl : Held st h l) : l ∈ st.live := by
  cases hl with
  | root h1 _ => exact h1
  | mem _ _ _ h4 h5 => exact (hI.mem _ _ h4 _ h5).1

theorem deref_held {K l : Nat} {st : St} {h} (hI : Inv st [] none) (hA : All st) (hl : l ∈ st.live) :
    ∃ st' o, deref K l st = .ok st' ∧ st'.item l = some o ∧ (st.item l = some o ∨ (st.item l = none ∧ o = st.next)) ∧ (∀ x, Held st h x → Held st' h x) ∧
      (∀ x ∈ st.live, st'.own x = st.own x) ∧ (∀ x ∈ st.live, x ≠ l → st'.item x = st.item x) := by
  unfold deref
  rw [if_neg (by simpa using hl)]
  cases ho : st.item l with
  | some o => exact ⟨st, o, rfl, ho, .inl rfl, fun _ h => h, fun _ _ => rfl, fun _ _ _ => rfl⟩
  | none =>
    have h1 := hI.open hl
    rw [ho] at h1
    obtain ⟨st1, e2, i2, a2, x2, -⟩ := newItem_ok h1.dropNull hA (fun x hx => by cases hx; exact hI.lt l hl) (List.replicate K none)
      (by intro o h; simp at h)
    refine ⟨{ st1 with item := upd st1.item l (some st.next) }, st.next, by simp [e2, Out.bind], by simp [upd], .inr ⟨rfl, rfl⟩, ?_, ?_, ?_⟩
    · intro x hx
      induction hx with
      | root h1 h2 => exact .root (x2.live _ h1) (by show st1.own _ = none; rw [x2.own _ (hI.lt _ h1)]; exact h2)
      | mem h1 h2 h3 h4 h5 ih =>
        obtain ⟨ob', e, m⟩ := x2.obj _ _ h4
        refine .mem ih h2 ?_ e (by rw [m]; exact h5)
        simp only [upd]
        split
        · rename_i e'; subst e'; rw [ho] at h3; simp at h3
        · rw [x2.item _ (hI.lt _ (h1.live' hI))]; exact h3
    · intro x hx; exact x2.own x (hI.lt x hx)
    · intro x hx hne; simp only [upd, hne, if_false]; exact x2.item x (hI.lt x hx)

theorem refdec_held {st : St} (hI : Inv st [] none) {l : Nat} (hl : Held st (some l) l) :
    ∃ st', refdec st (st.item l) = .ok st' ∧ l ∈ st'.live ∧ Inv st' [] (some l) ∧ Sub st st' ∧ ∀ x, Held st (some l) x → x ∈ st'.live := by
  have hlive := hl.live' hI
  obtain ⟨st', e, k⟩ := drain_held _ _ _ (hI.open hlive) (by simp : [st.item l].length + st.live.length ≤ 1 + st.live.length)
    (fun x hx => by cases hx; exact hl)
  -- held references are alive in the new state: roots are, members are because their object is
  have hlv : ∀ x, Held st' (some l) x → (∀ o ob, st'.obj o = some ob → ∀ m ∈ ob.mem, m ∈ st'.live) → x ∈ st'.live := by
    intro x hx hm
    cases hx with
    | root h1 _ => exact h1
    | mem _ _ _ h4 h5 => exact hm _ _ h4 _ h5
  have hmem : ∀ (f : Nat) (w : List (Option Nat)) (s s' : St), drain f w s = .ok s' →
      (∀ o ob, s.obj o = some ob → ∀ m ∈ ob.mem, m ∈ s.live ∧ s.own m = some o) →
      (∀ o ob, s'.obj o = some ob → ∀ m ∈ ob.mem, m ∈ s'.live ∧ s'.own m = some o) := by
    intro f
    induction f with
    | zero => intro w s s' h hm; cases w <;> simp [drain] at h; rw [← h]; exact hm
    | succ f ih =>
      intro w s s' h hm
      cases w with
      | nil => simp [drain] at h; rw [← h]; exact hm
      | cons x w =>
        cases x with
        | none => simp only [drain] at h; exact ih _ _ _ h hm
        | some o =>
          unfold drain at h
          split at h
          · simp at h
          · rename_i ob hob
            split at h
            · refine ih _ _ _ h ?_
              intro o' ob' e m hm'
              simp only [upd] at e
              split at e
              · simp at e
              · rename_i hne
                obtain ⟨q1, q2⟩ := hm o' ob' e m hm'
                refine ⟨List.mem_filter.2 ⟨q1, ?_⟩, q2⟩
                simp only [decide_eq_true_eq]
                intro h2
                have := (hm o ob hob m h2).2
                rw [q2] at this; simp at this; exact hne this
            · refine ih _ _ _ h ?_
              intro o' ob' e m hm'
              simp only [upd] at e
              split at e
              · rename_i e'; subst e'; simp at e; subst e; exact hm o' ob hob m hm'
              · exact hm o' ob' e m hm'
  have hm' := hmem _ _ _ _ e hI.mem
  have all : ∀ x, Held st (some l) x → x ∈ st'.live := fun x hx => hlv x (k x hx) (fun o ob ho m hm => (hm' o ob ho m hm).1)
  obtain ⟨i1, sub⟩ := refdec_open hI hlive e (all l hl)
  exact ⟨st', e, all l hl, i1, sub, all⟩

theorem assignItem_held {s : St} (hI : Inv s [] none) (hA : All s) {l : Nat} (hl : Held s (some l) l) (rd : St → Out (List (Option Nat)))
    (hrd : ∀ t, Inv t [] (some l) → Sub s t → (∀ x, Held s (some l) x → x ∈ t.live) →
      ∃ xs, rd t = .ok xs ∧ ∀ o, some o ∈ xs → ∃ ob, t.obj o = some ob) : ∃ s', assignItem l rd s = .ok s' := by
  obtain ⟨s1, e1, hl1, i1, sub, k⟩ := refdec_held hI hl
  obtain ⟨xs, e2, hx⟩ := hrd s1 i1 sub k
  obtain ⟨s4, e4, i4, a4, x4, -⟩ := newItem_ok i1 (sub.all hA) (fun x hx => by cases hx; exact i1.lt l hl1) xs hx
  refine ⟨{ s4 with item := upd s4.item l (some s1.next) }, ?_⟩
  simp [assignItem, e1, Out.bind, e2, e4, x4.live l hl1]

theorem step_legal (K : Nat) {op : Op} {st : St} (hI : Inv st [] none) (hA : All st) (h : Legal st op) : ∃ st', step K op st = .ok st' := by
  have hlive : ∀ l ∈ op.uses, l ∈ st.live := fun l hl => (h.held l hl).live' hI
  cases op with
  | new => exact ⟨_, rfl⟩
  | copy s =>
    have hs := hlive s (by simp [Op.uses])
    obtain ⟨s2, e2, -⟩ := inc_ok hI (st.item s) (hI.ref s hs (by simp))
    exact ⟨_, by simp [step, hs, e2, Out.bind]; rfl⟩
  | make =>
    obtain ⟨s1, e1, -⟩ := newItem_ok hI hA (by simp) (List.replicate K none) (by intro o h; simp at h)
    exact ⟨_, by simp [step, e1, Out.bind]; rfl⟩
  | makeOf s =>
    have hs := hlive s (by simp [Op.uses])
    obtain ⟨s1, o, e1, ho, -⟩ := deref_held (h := none) (K := K) hI hA hs
    obtain ⟨i1, a1, hs1, -⟩ := deref_inv hI hA e1
    obtain ⟨ob, hob⟩ := i1.ref s hs1 (by simp) o ho
    obtain ⟨s3, e3, -⟩ := newItem_ok i1 a1 (by simp) (ob.mem.map s1.item) (members_in i1 hob)
    exact ⟨_, by simp [step, e1, Out.bind, members, membersOf, ho, hob, e3]; rfl⟩
  | assign l s =>
    have hl := hlive l (by simp [Op.uses])
    have hs := hlive s (by simp [Op.uses])
    by_cases he : st.item s = st.item l
    · exact ⟨st, by simp [step, hl, hs, he]⟩
    · obtain ⟨s1, e1, hl1, i1, sub, k⟩ := refdec_held hI (h.held l (by simp [Op.uses]))
      have hs1 := k s (h.held s (by simp [Op.uses]))
      have hsl : s ≠ l := by rintro rfl; exact he rfl
      obtain ⟨s2, e2, -⟩ := inc_ok i1 (s1.item s) (i1.ref s hs1 (by simp [hsl]))
      exact ⟨_, by simp [step, hl, hs, he, e1, Out.bind, hl1, hs1, e2]; rfl⟩
  | assignVal l =>
    have hl := hlive l (by simp [Op.uses])
    obtain ⟨s', e⟩ := assignItem_held hI hA (h.held l (by simp [Op.uses])) (fun _ => .ok (List.replicate K none))
      (fun t _ _ _ => ⟨_, rfl, by intro o h; simp at h⟩)
    exact ⟨s', by simp [step, hl, e]⟩
  | assignOf l s =>
    have hl := hlive l (by simp [Op.uses])
    have hs := hlive s (by simp [Op.uses])
    obtain ⟨hsl, hown⟩ := h.alias l s rfl
    obtain ⟨s1, o, e1, ho, ho', k1, ow1, -⟩ := deref_held (h := some l) (K := K) hI hA hs
    obtain ⟨i1, a1, hs1, -⟩ := deref_inv hI hA e1
    have hol : s1.own l ≠ some o := by
      rw [ow1 l hl]
      rcases ho' with h' | ⟨h', rfl⟩
      · have := hown (by simp [h']); rw [h'] at this; exact this
      · -- an object that did not exist has no member of old
        intro e
        have := h.held l (by simp [Op.uses])
        cases this with
        | root _ h2 => rw [e] at h2; simp at h2
        | mem _ _ _ h4 h5 =>
          have h6 := (hI.mem _ _ h4 _ h5).2
          rw [e] at h6
          simp at h6
          have := hI.olt _ _ h4
          omega
    obtain ⟨s', e⟩ := assignItem_held i1 a1 (k1 l (h.held l (by simp [Op.uses]))) (membersOf o) (by
      intro t it sub kl
      have hst : s ∈ t.live := kl s (k1 s (h.held s (by simp [Op.uses])))
      obtain ⟨ob, hob⟩ := it.ref s hst (by simp [hsl]) o (by rw [sub.item]; exact ho)
      refine ⟨ob.mem.map t.item, by simp [membersOf, hob], ?_⟩
      intro o' h'
      rw [List.mem_map] at h'
      obtain ⟨m, hm, h'⟩ := h'
      obtain ⟨q1, q2⟩ := it.mem o ob hob m hm
      refine it.ref m q1 ?_ o' h'
      intro e
      simp at e; subst e
      rw [sub.own] at q2
      exact hol q2)
    exact ⟨s', by simp [step, hl, hs, e1, Out.bind, ho, e]⟩
  | deref l =>
    obtain ⟨s1, o, e1, -⟩ := deref_held (h := none) (K := K) hI hA (hlive l (by simp [Op.uses]))
    exact ⟨s1, e1⟩
  | nullify l =>
    have hl := hlive l (by simp [Op.uses])
    obtain ⟨s1, e1, hl1, -⟩ := refdec_held hI (h.held l (by simp [Op.uses]))
    exact ⟨_, by simp [step, hl, e1, Out.bind, hl1]; rfl⟩
  | swap a b => exact ⟨_, by simp [step, hlive a (by simp [Op.uses]), hlive b (by simp [Op.uses])]; rfl⟩
  | destroy l =>
    have hl := hlive l (by simp [Op.uses])
    have ho := h.var l rfl
    obtain ⟨s1, e1, -⟩ := drain_held _ _ _ (hI.remove hl ho)
      (Nat.le_refl _ : [st.item l].length + (st.live.filter (· ≠ l)).length ≤ _) (by simp)
    exact ⟨s1, by simpa [step, hl, ho, refdec] using e1⟩

/-- Every operation is legal in the state it is executed in. -/
def LegalRun (K : Nat) : List Op → St → Prop
  | [], _ => True
  | op :: ops, st => Legal st op ∧ ∀ st', step K op st = .ok st' → LegalRun K ops st'

/-- C15: a program in which each operation's references are kept alive independently of the reference it overwrites never meets
undefined behaviour, and the counts are right at the end. Missing: programs such as `p = p->next`, for which the property is
false (below). -/
theorem C15_defined_partial (K : Nat) (ops : List Op) (h : LegalRun K ops St.init) : ∃ st, run K ops St.init = .ok st ∧ Good st := by
  have main : ∀ (ops : List Op) (st : St), Inv st [] none → All st → LegalRun K ops st → ∃ st', run K ops st = .ok st' := by
    intro ops
    induction ops with
    | nil => intro st _ _ _; exact ⟨st, rfl⟩
    | cons op ops ih =>
      intro st hI hA h
      obtain ⟨s1, e1⟩ := step_legal K hI hA h.1
      obtain ⟨i1, a1⟩ := step_inv K op hI hA e1
      obtain ⟨s2, e2⟩ := ih s1 i1 a1 (h.2 s1 e1)
      exact ⟨s2, by simp [run, e1, Out.bind, e2]⟩
  obtain ⟨st, e⟩ := main ops _ init_inv.1 init_inv.2 h
  exact ⟨st, e, C15_counts K ops st e⟩

/-- What the operations do to the references: assignment makes them denote the same object, and leaves the others alone. -/
theorem C15_assign_effect (K l s : Nat) (st st' : St) (h : step K (.assign l s) st = .ok st') :
    st'.item l = st.item s ∧ ∀ x, x ≠ l → st'.item x = st.item x := by
  simp only [step] at h
  split at h
  · simp at h
  · split at h
    · rename_i he; simp at h; subst h; exact ⟨he.symm, fun _ _ => rfl⟩
    · obtain ⟨s1, e1, h⟩ := bind_eq h
      split at h
      · simp at h
      · obtain ⟨s2, e2, h⟩ := bind_eq h
        simp at h; subst h
        have d : ∀ (f : Nat) (w : List (Option Nat)) (t t' : St), drain f w t = .ok t' → t'.item = t.item := by
          intro f
          induction f with
          | zero => intro w t t' h; cases w <;> simp [drain] at h; rw [h]
          | succ f ih =>
            intro w t t' h
            cases w with
            | nil => simp [drain] at h; rw [h]
            | cons x w =>
              cases x with
              | none => simp only [drain] at h; exact ih _ _ _ h
              | some o =>
                unfold drain at h
                split at h
                · simp at h
                · split at h
                  · have := ih _ _ _ h; exact this
                  · have := ih _ _ _ h; exact this
        have d1 := d _ _ _ _ e1
        have d2 : s2.item = s1.item := by
          unfold inc at e2
          split at e2
          · simp at e2; rw [e2]
          · split at e2
            · simp at e2
            · simp at e2; subst e2; rfl
        constructor
        · simp [upd, d2, d1]
        · intro x hx; simp [upd, hx, d2, d1]

/-- `ref p(T()); ref q(T()); p->next = q; q.nullify();` makes a list of two objects. -/
def exList : List Op := [.make, .make, .assign 0 3, .nullify 3]

/-- The destruction of everything reachable from a variable: both objects of the list go, in order. -/
example : ∃ st, run 1 (exList ++ [.destroy 1]) St.init = .ok st ∧ st.log = [0, 1] ∧ st.live = [3] := ⟨_, rfl, by decide, by decide⟩
/-- A shared object is not destroyed with the first of its references. -/
example : ∃ st, run 1 [.make, .copy 1, .destroy 1] St.init = .ok st ∧ st.log = [] ∧ refs st 0 = 1 ∧ refCount st 2 = 1 := ⟨_, rfl, by decide, by decide, by decide⟩

/-- The variables of the program above are legal operands. -/
example (st : St) (h : 1 ∈ st.live) (h' : 3 ∈ st.live) (ho : st.own 1 = none) (ho' : st.own 3 = none) : Legal st (.assign 1 3) :=
  ⟨by intro l hl; simp [Op.uses] at hl; rcases hl with rfl | rfl; exact .root h ho; exact .root h' ho', by simp, by simp⟩
example : LegalRun 1 [.new, .new, .assign 0 1, .destroy 0] St.init := by
  refine ⟨⟨by simp [Op.uses], by simp, by simp⟩, fun s h => ?_⟩
  simp [step] at h; subst h
  refine ⟨⟨by simp [Op.uses], by simp, by simp⟩, fun s h => ?_⟩
  simp [step] at h; subst h
  refine ⟨⟨by intro l hl; simp [Op.uses] at hl; rcases hl with rfl | rfl <;> exact .root (by simp [addLoc, St.init]) (by simp [addLoc, upd, St.init]),
    by simp, by simp⟩, fun s h => ?_⟩
  simp [step, addLoc, St.init, upd] at h; subst h
  refine ⟨⟨by intro l hl; simp [Op.uses] at hl; subst hl; exact .root (by simp) rfl, by simp [upd], by simp⟩, fun s h => trivial⟩

/-- C15 fails for `p = p->next` (p the only reference to its object): the assignment releases the object, and with it the
reference it is about to read. -/
theorem C15_self_next_fails : run 1 (exList ++ [.assign 1 0]) St.init = .ub := by rfl

/-- C15 fails for `p = *p` (p the only reference to its object): the object is destroyed before it is copied. -/
theorem C15_self_value_fails : run 1 [.make, .assignOf 1 1] St.init = .ub := by rfl

end Verif.Ref
