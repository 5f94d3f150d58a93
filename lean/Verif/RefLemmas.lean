import Verif.Ref
/-
The counting invariant of `ref`.
-/
namespace Verif.Ref
open Verif.Graph (Out)

/-- Number of live references to `o`, not counting the one that is being overwritten. -/
def cnt (st : St) (h : Option Nat) (o : Nat) : Nat := st.live.countP (fun l => decide (some l ≠ h) && decide (st.item l = some o))

/-- Invariant in the middle of an operation: `w` are references held by the code itself (to be released or about to be stored), `h` is the
location about to be overwritten. -/
structure Inv (st : St) (w : List (Option Nat)) (h : Option Nat) : Prop where
  nodup : st.live.Nodup
  lt : ∀ l ∈ st.live, l < st.nloc
  ref : ∀ l ∈ st.live, some l ≠ h → ∀ o, st.item l = some o → ∃ ob, st.obj o = some ob
  wref : ∀ o, some o ∈ w → ∃ ob, st.obj o = some ob
  count : ∀ o ob, st.obj o = some ob → ob.count = cnt st h o + w.count (some o) ∧ 1 ≤ ob.count
  memd : ∀ o ob, st.obj o = some ob → ob.mem.Nodup
  mem : ∀ o ob, st.obj o = some ob → ∀ m ∈ ob.mem, m ∈ st.live ∧ st.own m = some o
  olt : ∀ o ob, st.obj o = some ob → o < st.next
  logd : st.log.Nodup
  log : ∀ o ∈ st.log, o < st.next ∧ st.obj o = none

/-- Every object ever made exists or has been destroyed. -/
def All (st : St) : Prop := ∀ o, o < st.next → st.obj o = none → o ∈ st.log

theorem countP_split {p : Nat → Bool} {l : Nat} : ∀ {L : List Nat}, L.Nodup → l ∈ L →
    L.countP p = (if p l then 1 else 0) + L.countP (fun x => decide (x ≠ l) && p x)
  | [], _, h => by simp at h
  | x :: L, hn, h => by
    rw [List.nodup_cons] at hn
    simp only [List.countP_cons]
    by_cases e : x = l
    · subst e
      have : L.countP (fun y => decide (y ≠ x) && p y) = L.countP p := by
        apply List.countP_congr
        intro y hy
        have : y ≠ x := fun e => hn.1 (e ▸ hy)
        simp [this]
      rw [this]; simp; omega
    · have h' : l ∈ L := by simpa [Ne.symm e] using h
      rw [countP_split hn.2 h']
      simp [e]; omega

theorem cnt_hole {st : St} (hn : st.live.Nodup) {l : Nat} (hl : l ∈ st.live) (o : Nat) :
    cnt st none o = cnt st (some l) o + [st.item l].count (some o) := by
  unfold cnt
  rw [countP_split hn hl]
  simp only [List.count_singleton]
  have : st.live.countP (fun x => decide (x ≠ l) && (decide (some x ≠ none) && decide (st.item x = some o)))
      = st.live.countP (fun x => decide (some x ≠ some l) && decide (st.item x = some o)) := by
    apply List.countP_congr; intro x _; simp
  rw [this]
  by_cases e : st.item l = some o <;> simp [e] <;> omega

/-- Starting to overwrite a reference. -/
theorem Inv.open {st : St} (hI : Inv st [] none) {l : Nat} (hl : l ∈ st.live) : Inv st [st.item l] (some l) := by
  refine ⟨hI.nodup, hI.lt, fun x hx _ => hI.ref x hx (by simp), ?_, ?_, hI.memd, hI.mem, hI.olt, hI.logd, hI.log⟩
  · intro o ho; simp at ho; exact hI.ref l hl (by simp) o ho.symm
  · intro o ob h
    have := hI.count o ob h
    have := cnt_hole hI.nodup hl o
    simp only [List.count_nil] at *
    omega

theorem cnt_upd {st : St} {l : Nat} {x : Option Nat} {o : Nat} :
    cnt { st with item := upd st.item l x } (some l) o = cnt st (some l) o := by
  unfold cnt
  apply List.countP_congr
  intro y _
  by_cases e : y = l <;> simp [upd, e]

/-- Storing a reference the code holds. -/
theorem Inv.close {st : St} {x : Option Nat} {l : Nat} (hI : Inv st [x] (some l)) (hl : l ∈ st.live) :
    Inv { st with item := upd st.item l x } [] none := by
  refine ⟨hI.nodup, hI.lt, ?_, by simp, ?_, hI.memd, hI.mem, hI.olt, hI.logd, hI.log⟩
  · intro y hy _ o ho
    simp only [upd] at ho
    split at ho
    · exact hI.wref o (by simp [ho])
    · rename_i e; exact hI.ref y hy (by simp [e]) o ho
  · intro o ob h
    have h1 := hI.count o ob h
    have h2 := cnt_hole (st := { st with item := upd st.item l x }) hI.nodup hl o
    rw [cnt_upd] at h2
    simp only [upd, if_true] at h2
    simp only [List.count_nil]
    omega

/-- Closing with null when nothing is held. -/
theorem Inv.closeNull {st : St} {l : Nat} (hI : Inv st [] (some l)) (hl : l ∈ st.live) :
    Inv { st with item := upd st.item l none } [] none := by
  refine Inv.close ⟨hI.nodup, hI.lt, hI.ref, by simp, ?_, hI.memd, hI.mem, hI.olt, hI.logd, hI.log⟩ hl
  intro o ob h; have := hI.count o ob h; simpa using this

/-- The map of a state to a later one, when nothing is destroyed. -/
structure Ext (st st' : St) : Prop where
  live : ∀ l ∈ st.live, l ∈ st'.live
  nloc : st.nloc ≤ st'.nloc
  item : ∀ l, l < st.nloc → st'.item l = st.item l
  own : ∀ l, l < st.nloc → st'.own l = st.own l
  obj : ∀ o ob, st.obj o = some ob → ∃ ob', st'.obj o = some ob' ∧ ob'.mem = ob.mem
  log : st'.log = st.log

theorem Ext.refl (st : St) : Ext st st := ⟨fun _ h => h, Nat.le_refl _, fun _ _ => rfl, fun _ _ => rfl, fun _ ob h => ⟨ob, h, rfl⟩, rfl⟩

theorem Ext.trans {a b c : St} (h : Ext a b) (k : Ext b c) : Ext a c := by
  refine ⟨fun l hl => k.live l (h.live l hl), Nat.le_trans h.nloc k.nloc, fun l hl => ?_, fun l hl => ?_, fun o ob ho => ?_, k.log.trans h.log⟩
  · rw [k.item l (Nat.lt_of_lt_of_le hl h.nloc), h.item l hl]
  · rw [k.own l (Nat.lt_of_lt_of_le hl h.nloc), h.own l hl]
  · obtain ⟨o1, e1, m1⟩ := h.obj o ob ho
    obtain ⟨o2, e2, m2⟩ := k.obj o o1 e1
    exact ⟨o2, e2, m2.trans m1⟩

theorem inc_ok {st : St} {w h} (hI : Inv st w h) (x : Option Nat) (hx : ∀ o, x = some o → ∃ ob, st.obj o = some ob) :
    ∃ st', inc x st = .ok st' ∧ Inv st' (x :: w) h ∧ Ext st st' ∧ st'.live = st.live ∧ st'.nloc = st.nloc ∧ st'.item = st.item ∧ st'.own = st.own ∧
      st'.next = st.next ∧ ∀ o, st'.obj o = none ↔ st.obj o = none := by
  cases x with
  | none =>
    refine ⟨st, rfl, ⟨hI.nodup, hI.lt, hI.ref, ?_, ?_, hI.memd, hI.mem, hI.olt, hI.logd, hI.log⟩, .refl _, rfl, rfl, rfl, rfl, rfl, by simp⟩
    · intro o ho; simp at ho; exact hI.wref o ho
    · intro o ob ho; have := hI.count o ob ho; simpa using this
  | some a =>
    obtain ⟨oa, ha⟩ := hx a rfl
    have hone : ∀ o, upd st.obj a (some { oa with count := oa.count + 1 }) o = none ↔ st.obj o = none := by
      intro o; unfold upd; split
      · rename_i e; subst e; simp [ha]
      · rfl
    have hsome : ∀ o ob', upd st.obj a (some { oa with count := oa.count + 1 }) o = some ob' →
        ∃ ob, st.obj o = some ob ∧ ob'.mem = ob.mem ∧ ob'.count = ob.count + (if o = a then 1 else 0) := by
      intro o ob' e; unfold upd at e; split at e
      · rename_i e'; subst e'; simp at e; subst e; exact ⟨oa, ha, rfl, by simp⟩
      · exact ⟨ob', e, rfl, by simp [*]⟩
    have hex : ∀ o ob, st.obj o = some ob → ∃ ob', upd st.obj a (some { oa with count := oa.count + 1 }) o = some ob' := by
      intro o ob e; exact Option.ne_none_iff_exists'.1 (fun e' => by rw [hone, e] at e'; simp at e')
    refine ⟨{ st with obj := upd st.obj a (some { oa with count := oa.count + 1 }) }, by simp [inc, ha], ?_, ?_, rfl, rfl, rfl, rfl, rfl, hone⟩
    · refine ⟨hI.nodup, hI.lt, ?_, ?_, ?_, ?_, ?_, ?_, hI.logd, ?_⟩
      · intro l hl hh o ho; obtain ⟨ob, e⟩ := hI.ref l hl hh o ho; exact hex o ob e
      · intro o ho; simp at ho
        rcases ho with rfl | ho
        · exact hex _ _ ha
        · obtain ⟨ob, e⟩ := hI.wref o ho; exact hex o ob e
      · intro o ob' e
        obtain ⟨ob, e1, -, e3⟩ := hsome o ob' e
        have := hI.count o ob e1
        have hc : cnt { st with obj := upd st.obj a (some { oa with count := oa.count + 1 }) } h o = cnt st h o := rfl
        rw [hc, List.count_cons]
        by_cases e' : o = a
        · subst e'; simp at e3 ⊢; omega
        · simp [e', Ne.symm e'] at e3 ⊢; omega
      · intro o ob' e; obtain ⟨ob, e1, e2, -⟩ := hsome o ob' e; rw [e2]; exact hI.memd o ob e1
      · intro o ob' e; obtain ⟨ob, e1, e2, -⟩ := hsome o ob' e; rw [e2]; exact hI.mem o ob e1
      · intro o ob' e; obtain ⟨ob, e1, e2, -⟩ := hsome o ob' e; exact hI.olt o ob e1
      · intro o ho; obtain ⟨h1, h2⟩ := hI.log o ho; exact ⟨h1, (hone o).2 h2⟩
    · refine ⟨fun _ h => h, Nat.le_refl _, fun _ _ => rfl, fun _ _ => rfl, ?_, rfl⟩
      intro o ob e
      obtain ⟨ob', e'⟩ := hex o ob e
      obtain ⟨ob2, e1, e2, -⟩ := hsome o ob' e'
      rw [e] at e1; cases e1
      exact ⟨ob', e', e2⟩

theorem addLoc_ok {st : St} {x w h} (hI : Inv st (x :: w) h) (hh : h ≠ some st.nloc) (ow : Option Nat) : Inv (addLoc ow x st) w h := by
  have hnew : st.nloc ∉ st.live := fun hm => Nat.lt_irrefl _ (hI.lt _ hm)
  have hne : ∀ l ∈ st.live, l ≠ st.nloc := fun l hl e => hnew (e ▸ hl)
  refine ⟨?_, ?_, ?_, ?_, ?_, hI.memd, ?_, hI.olt, hI.logd, hI.log⟩
  · exact List.nodup_cons.2 ⟨hnew, hI.nodup⟩
  · intro l hl
    have hl : l = st.nloc ∨ l ∈ st.live := by simpa [addLoc] using hl
    show l < st.nloc + 1
    rcases hl with rfl | hl
    · omega
    · have := hI.lt l hl; omega
  · intro l hl hlh o ho
    have hl : l = st.nloc ∨ l ∈ st.live := by simpa [addLoc] using hl
    have ho : upd st.item st.nloc x l = some o := ho
    rcases hl with rfl | hl
    · simp [upd] at ho; exact hI.wref o (by simp [ho])
    · simp [upd, hne l hl] at ho; exact hI.ref l hl hlh o ho
  · intro o ho; exact hI.wref o (by simp [ho])
  · intro o ob ho
    have hc : cnt (addLoc ow x st) h o = cnt st h o + [x].count (some o) := by
      unfold cnt addLoc
      simp only [List.countP_cons]
      have : st.live.countP (fun l => decide (some l ≠ h) && decide (upd st.item st.nloc x l = some o))
          = st.live.countP (fun l => decide (some l ≠ h) && decide (st.item l = some o)) := by
        apply List.countP_congr; intro l hl; simp [upd, hne l hl]
      rw [this]
      have hh' : some st.nloc ≠ h := fun e => hh e.symm
      simp [upd, hh', List.count_singleton]
    have := hI.count o ob ho
    rw [List.count_cons] at this
    rw [hc, List.count_singleton]
    refine ⟨?_, this.2⟩
    rw [this.1]
    push_cast
    split <;> simp <;> omega
  · intro o ob ho m hm
    obtain ⟨h1, h2⟩ := hI.mem o ob ho m hm
    refine ⟨by simp [addLoc, h1], ?_⟩
    show upd st.own st.nloc ow m = some o
    simp [upd, hne m h1, h2]

theorem addLoc_ext {st : St} {x} (ow : Option Nat) : Ext st (addLoc ow x st) := by
  refine ⟨fun l hl => by simp [addLoc, hl], by simp [addLoc], fun l hl => ?_, fun l hl => ?_, fun o ob h => ⟨ob, h, rfl⟩, rfl⟩
  · simp [addLoc, upd, Nat.ne_of_lt hl]
  · simp [addLoc, upd, Nat.ne_of_lt hl]

theorem copyMems_ok {w h} (owner : Nat) : ∀ (xs : List (Option Nat)) (st : St), Inv st w h → (∀ l, h = some l → l < st.nloc) →
    (∀ o, some o ∈ xs → ∃ ob, st.obj o = some ob) →
    ∃ ls st', copyMems owner xs st = .ok (ls, st') ∧ Inv st' w h ∧ Ext st st' ∧ ls.Nodup ∧ (∀ l ∈ ls, l ∈ st'.live ∧ st'.own l = some owner ∧ st.nloc ≤ l) ∧
      st'.next = st.next ∧ (∀ o, st'.obj o = none ↔ st.obj o = none) ∧ ls.map st'.item = xs
  | [], st, hI, _, _ => ⟨[], st, rfl, hI, .refl _, by simp, by simp, rfl, by simp, rfl⟩
  | x :: xs, st, hI, hh, hx => by
    obtain ⟨s1, e1, i1, x1, l1, n1, t1, w1, p1, o1⟩ := inc_ok hI x (fun o ho => hx o (by simp [ho]))
    have hne : h ≠ some s1.nloc := by
      intro e; have := hh _ e; omega
    have i2 := addLoc_ok i1 hne (some owner)
    have x2 : Ext st (addLoc (some owner) x s1) := x1.trans (addLoc_ext (some owner))
    obtain ⟨ls, s3, e3, i3, x3, d3, m3, p3, o3, it3⟩ := copyMems_ok owner xs (addLoc (some owner) x s1) i2
      (fun l hl => Nat.lt_of_lt_of_le (hh l hl) x2.nloc)
      (fun o ho => by obtain ⟨ob, e⟩ := hx o (by simp [ho]); obtain ⟨ob', e', -⟩ := x2.obj o ob e; exact ⟨ob', e'⟩)
    have hnl : (addLoc (some owner) x s1).nloc = st.nloc + 1 := by simp [addLoc, n1]
    refine ⟨st.nloc :: ls, s3, by simp [copyMems, e1, Out.bind, e3], i3, x2.trans x3, ?_, ?_, ?_, ?_, ?_⟩
    · rw [List.nodup_cons]; refine ⟨fun hm => ?_, d3⟩; have := (m3 _ hm).2.2; omega
    · intro l hl
      simp only [List.mem_cons] at hl
      rcases hl with rfl | hl
      · refine ⟨x3.live _ (by simp [addLoc, n1]), ?_, Nat.le_refl _⟩
        rw [x3.own _ (by omega)]; simp [addLoc, upd, n1]
      · obtain ⟨q1, q2, q3⟩ := m3 l hl; exact ⟨q1, q2, by omega⟩
    · rw [p3]; exact p1
    · intro o; rw [o3]; exact o1 o
    · rw [List.map_cons, it3, x3.item _ (by omega)]; simp [addLoc, upd, n1]

theorem newItem_ok {st : St} {w h} (hI : Inv st w h) (hA : All st) (hh : ∀ l, h = some l → l < st.nloc) (xs : List (Option Nat))
    (hx : ∀ o, some o ∈ xs → ∃ ob, st.obj o = some ob) :
    ∃ st', newItem xs st = .ok (st.next, st') ∧ Inv st' (some st.next :: w) h ∧ All st' ∧ Ext st st' ∧
      ∃ ob, st'.obj st.next = some ob ∧ ob.mem.map st'.item = xs := by
  have hno : st.obj st.next = none := by
    cases e : st.obj st.next with
    | none => rfl
    | some ob => exact absurd (hI.olt _ _ e) (Nat.lt_irrefl _)
  have hnw : ∀ o, some o ∈ w → o ≠ st.next := by
    intro o ho e; subst e; obtain ⟨ob, e⟩ := hI.wref _ ho; rw [hno] at e; simp at e
  obtain ⟨ls, s2, e2, i2, x2, d2, m2, p2, o2, it2⟩ := copyMems_ok (w := w) (h := h) st.next xs { st with next := st.next + 1 }
    ⟨hI.nodup, hI.lt, hI.ref, hI.wref, hI.count, hI.memd, hI.mem, fun o ob e => by have := hI.olt o ob e; simp; omega, hI.logd,
      fun o ho => by have := hI.log o ho; exact ⟨by simp; omega, this.2⟩⟩ hh hx
  have hno2 : s2.obj st.next = none := (o2 _).2 hno
  have hupd : ∀ o ob, s2.obj o = some ob → upd s2.obj st.next (some ⟨1, ls⟩) o = some ob := by
    intro o ob e; unfold upd; split
    · rename_i e'; subst e'; rw [hno2] at e; simp at e
    · exact e
  have hinv : ∀ o ob, upd s2.obj st.next (some ⟨1, ls⟩) o = some ob → (o = st.next ∧ ob = ⟨1, ls⟩) ∨ (o ≠ st.next ∧ s2.obj o = some ob) := by
    intro o ob e; unfold upd at e; split at e
    · left; simp at e; exact ⟨by assumption, e.symm⟩
    · right; exact ⟨by assumption, e⟩
  have p2 : s2.next = st.next + 1 := p2
  refine ⟨{ s2 with obj := upd s2.obj st.next (some ⟨1, ls⟩) }, by simp [newItem, e2, Out.bind], ?_, ?_, ?_, ⟨1, ls⟩, by simp [upd], it2⟩
  · refine ⟨i2.nodup, i2.lt, ?_, ?_, ?_, ?_, ?_, ?_, i2.logd, ?_⟩
    · intro l hl hlh o ho; obtain ⟨ob, e⟩ := i2.ref l hl hlh o ho; exact ⟨ob, hupd o ob e⟩
    · intro o ho; simp at ho
      rcases ho with rfl | ho
      · exact ⟨⟨1, ls⟩, by simp [upd]⟩
      · obtain ⟨ob, e⟩ := i2.wref o ho; exact ⟨ob, hupd o ob e⟩
    · intro o ob e
      have hc : cnt { s2 with obj := upd s2.obj st.next (some ⟨1, ls⟩) } h o = cnt s2 h o := rfl
      rw [hc, List.count_cons]
      rcases hinv o ob e with ⟨rfl, rfl⟩ | ⟨hne, e⟩
      · have c0 : cnt s2 h st.next = 0 := by
          apply Nat.eq_zero_of_not_pos
          intro hp
          unfold cnt at hp
          rw [List.countP_pos_iff] at hp
          obtain ⟨l, hl, hp⟩ := hp
          simp only [Bool.and_eq_true, decide_eq_true_eq] at hp
          obtain ⟨ob, e⟩ := i2.ref l hl hp.1 _ hp.2
          rw [hno2] at e; simp at e
        have c1 : w.count (some st.next) = 0 := List.count_eq_zero.2 (fun hm => hnw _ hm rfl)
        simp [c0, c1]
      · have := i2.count o ob e
        simp [Ne.symm hne]
        exact this
    · intro o ob e
      rcases hinv o ob e with ⟨rfl, rfl⟩ | ⟨hne, e⟩
      · exact d2
      · exact i2.memd o ob e
    · intro o ob e
      rcases hinv o ob e with ⟨rfl, rfl⟩ | ⟨hne, e⟩
      · intro m hm; obtain ⟨q1, q2, -⟩ := m2 m hm; exact ⟨q1, q2⟩
      · exact i2.mem o ob e
    · intro o ob e
      show o < s2.next
      rcases hinv o ob e with ⟨rfl, rfl⟩ | ⟨hne, e⟩
      · omega
      · exact i2.olt o ob e
    · intro o ho
      obtain ⟨h1, h2⟩ := i2.log o ho
      refine ⟨h1, ?_⟩
      show upd s2.obj st.next (some ⟨1, ls⟩) o = none
      unfold upd; split
      · rename_i e; subst e
        have hl := x2.log
        rw [hl] at ho
        have := (hI.log _ ho).1
        exact absurd this (Nat.lt_irrefl _)
      · exact h2
  · intro o ho e
    have hlog := x2.log
    show o ∈ s2.log
    rw [hlog]
    have ho : o < s2.next := ho
    have e : upd s2.obj st.next (some ⟨1, ls⟩) o = none := e
    unfold upd at e; split at e
    · simp at e
    · rename_i hne
      exact hA o (by omega) ((o2 o).1 e)
  · refine ⟨x2.live, x2.nloc, x2.item, x2.own, ?_, x2.log⟩
    intro o ob e
    obtain ⟨ob', e', m⟩ := x2.obj o ob e
    exact ⟨ob', hupd o ob' e', m⟩

/-! ### Releasing references -/

/-- The state after releasing: references and objects may be gone, nothing else changes. -/
structure Sub (st st' : St) : Prop where
  live : ∀ l ∈ st'.live, l ∈ st.live
  nloc : st'.nloc = st.nloc
  item : st'.item = st.item
  own : st'.own = st.own
  next : st'.next = st.next
  obj : ∀ o ob', st'.obj o = some ob' → ∃ ob, st.obj o = some ob ∧ ob'.mem = ob.mem
  log : ∀ o ∈ st.log, o ∈ st'.log
  all : All st → All st'

theorem Sub.refl (st : St) : Sub st st := ⟨fun _ h => h, rfl, rfl, rfl, rfl, fun _ ob h => ⟨ob, h, rfl⟩, fun _ h => h, fun h => h⟩

theorem Sub.trans {a b c : St} (h : Sub a b) (k : Sub b c) : Sub a c := by
  refine ⟨fun l hl => h.live l (k.live l hl), k.nloc.trans h.nloc, k.item.trans h.item, k.own.trans h.own, k.next.trans h.next,
    fun o ob ho => ?_, fun o ho => k.log o (h.log o ho), fun hA => k.all (h.all hA)⟩
  obtain ⟨o1, e1, m1⟩ := k.obj o ob ho
  obtain ⟨o2, e2, m2⟩ := h.obj o o1 e1
  exact ⟨o2, e2, m1.trans m2⟩

/-- A reference the program keeps alive by a chain from one of its variables that does not go through `h`. -/
inductive Held (st : St) (h : Option Nat) : Nat → Prop
  | root {l} : l ∈ st.live → st.own l = none → Held st h l
  | mem {l' o ob l} : Held st h l' → some l' ≠ h → st.item l' = some o → st.obj o = some ob → l ∈ ob.mem → Held st h l

theorem Held.live {st w h l} (hI : Inv st w h) (hl : Held st h l) : l ∈ st.live := by
  cases hl with
  | root h1 _ => exact h1
  | mem _ _ _ h4 h5 => exact (hI.mem _ _ h4 _ h5).1

/-- Destroying an object whose last reference has been released. -/
theorem destroy_ok {st : St} {o : Nat} {ob : Obj} {w h} (hI : Inv st (some o :: w) h) (ho : st.obj o = some ob) (h0 : ob.count - 1 = 0)
    (hh : ∀ l, h = some l → l ∉ ob.mem) :
    Inv { st with live := st.live.filter (fun l => decide (l ∉ ob.mem)), obj := upd st.obj o none, log := st.log ++ [o] }
      (ob.mem.reverse.map st.item ++ w) h ∧
    Sub st { st with live := st.live.filter (fun l => decide (l ∉ ob.mem)), obj := upd st.obj o none, log := st.log ++ [o] } ∧
    cnt st h o = 0 ∧ some o ∉ w ∧ (st.live.filter (fun l => decide (l ∉ ob.mem))).length + ob.mem.length = st.live.length := by
  have hc := hI.count o ob ho
  rw [List.count_cons_self] at hc
  have hz : cnt st h o = 0 ∧ w.count (some o) = 0 := by omega
  have hw : some o ∉ w := List.count_eq_zero.1 hz.2
  have hnr : ∀ l ∈ st.live, some l ≠ h → st.item l ≠ some o := by
    intro l hl hlh e
    have := hz.1
    unfold cnt at this
    rw [List.countP_eq_zero] at this
    exact this l hl (by simp [hlh, e])
  have hperm : (st.live.filter (fun l => !decide (l ∉ ob.mem))).Perm ob.mem := by
    rw [List.perm_ext_iff_of_nodup (List.Nodup.sublist List.filter_sublist hI.nodup) (hI.memd o ob ho)]
    intro a
    simp only [List.mem_filter, Bool.not_eq_true', decide_eq_false_iff_not, Decidable.not_not]
    exact ⟨fun h => h.2, fun h => ⟨(hI.mem o ob ho a h).1, h⟩⟩
  have hsplit : ∀ p : Nat → Bool, st.live.countP p = (st.live.filter (fun l => decide (l ∉ ob.mem))).countP p + ob.mem.countP p := by
    intro p
    rw [List.countP_eq_countP_filter_add st.live p (fun l => decide (l ∉ ob.mem)), hperm.countP_eq]
  have hobj : ∀ o' ob', upd st.obj o none o' = some ob' → o' ≠ o ∧ st.obj o' = some ob' := by
    intro o' ob' e; unfold upd at e; split at e
    · simp at e
    · exact ⟨by assumption, e⟩
  have hobj2 : ∀ o' ob', o' ≠ o → st.obj o' = some ob' → upd st.obj o none o' = some ob' := by
    intro o' ob' hne e; simp [upd, hne, e]
  refine ⟨⟨List.Nodup.sublist List.filter_sublist hI.nodup, fun l hl => hI.lt l (List.mem_filter.1 hl).1, ?_, ?_, ?_, ?_, ?_, ?_, ?_, ?_⟩, ?_, hz.1, hw, ?_⟩
  · intro l hl hlh o' e
    have hl := (List.mem_filter.1 hl).1
    obtain ⟨ob', e'⟩ := hI.ref l hl hlh o' e
    exact ⟨ob', hobj2 o' ob' (fun e2 => hnr l hl hlh (by rw [← e2]; exact e)) e'⟩
  · intro o' ho'
    rw [List.mem_append] at ho'
    rcases ho' with ho' | ho'
    · rw [List.mem_map] at ho'
      obtain ⟨m, hm, e⟩ := ho'
      rw [List.mem_reverse] at hm
      have hml := (hI.mem o ob ho m hm).1
      have hmh : some m ≠ h := fun e => hh m e.symm hm
      obtain ⟨ob', e'⟩ := hI.ref m hml hmh o' e
      exact ⟨ob', hobj2 o' ob' (fun e2 => hnr m hml hmh (by rw [← e2]; exact e)) e'⟩
    · obtain ⟨ob', e'⟩ := hI.wref o' (by simp [ho'])
      exact ⟨ob', hobj2 o' ob' (fun e2 => hw (e2 ▸ ho')) e'⟩
  · intro o' ob' e
    obtain ⟨hne, e⟩ := hobj o' ob' e
    have h1 := hI.count o' ob' e
    have h2 := hsplit (fun l => decide (some l ≠ h) && decide (st.item l = some o'))
    have h3 : ob.mem.countP (fun l => decide (some l ≠ h) && decide (st.item l = some o')) = (ob.mem.reverse.map st.item).count (some o') := by
      rw [List.count_eq_countP, List.countP_map, List.countP_reverse]
      apply List.countP_congr
      intro m hm
      have hmh : some m ≠ h := fun e => hh m e.symm hm
      simp [hmh]
    rw [List.count_cons] at h1
    simp only [show ¬ (o = o') from fun e => hne e.symm, Option.some.injEq, beq_iff_eq, if_false, Nat.add_zero] at h1
    rw [List.count_append]
    unfold cnt at h1 ⊢
    rw [h3] at h2
    simp only
    omega
  · intro o' ob' e; exact hI.memd o' ob' (hobj o' ob' e).2
  · intro o' ob' e m hm
    obtain ⟨hne, e⟩ := hobj o' ob' e
    obtain ⟨q1, q2⟩ := hI.mem o' ob' e m hm
    refine ⟨List.mem_filter.2 ⟨q1, ?_⟩, q2⟩
    simp only [decide_eq_true_eq]
    intro hm'
    have := (hI.mem o ob ho m hm').2
    rw [q2] at this
    simp at this; exact hne this
  · intro o' ob' e; exact hI.olt o' ob' (hobj o' ob' e).2
  · rw [List.nodup_append]
    refine ⟨hI.logd, by simp, ?_⟩
    intro a ha b hb e
    simp at hb; subst hb; subst e
    have := (hI.log _ ha).2
    rw [ho] at this; simp at this
  · intro o' ho'
    simp only [List.mem_append, List.mem_singleton] at ho'
    rcases ho' with ho' | rfl
    · obtain ⟨q1, q2⟩ := hI.log o' ho'
      exact ⟨q1, by simp only [upd]; split; rfl; exact q2⟩
    · exact ⟨hI.olt _ _ ho, by simp [upd]⟩
  · refine ⟨fun l hl => (List.mem_filter.1 hl).1, rfl, rfl, rfl, rfl, fun o' ob' e => ⟨ob', (hobj o' ob' e).2, rfl⟩, fun o' ho' => by simp [ho'], ?_⟩
    intro hA o' hlt e
    simp only [List.mem_append, List.mem_singleton]
    by_cases he : o' = o
    · exact .inr he
    · exact .inl (hA o' hlt (by simpa [upd, he] using e))
  · have := hsplit (fun _ => true)
    simp only [List.countP_true] at this
    omega

/-- Releasing a reference that is not the last. -/
theorem release_ok {st : St} {o : Nat} {ob : Obj} {w h} (hI : Inv st (some o :: w) h) (ho : st.obj o = some ob) (h0 : ob.count - 1 ≠ 0) :
    Inv { st with obj := upd st.obj o (some { ob with count := ob.count - 1 }) } w h ∧
    Sub st { st with obj := upd st.obj o (some { ob with count := ob.count - 1 }) } := by
  have hc := hI.count o ob ho
  have hobj : ∀ o' ob', upd st.obj o (some { ob with count := ob.count - 1 }) o' = some ob' →
      ∃ ob2, st.obj o' = some ob2 ∧ ob'.mem = ob2.mem ∧ ob'.count = ob2.count - (if o' = o then 1 else 0) := by
    intro o' ob' e; unfold upd at e; split at e
    · rename_i e'; subst e'; simp at e; subst e; exact ⟨ob, ho, rfl, by simp⟩
    · rename_i hne; exact ⟨ob', e, rfl, by simp [hne]⟩
  have hex : ∀ o' ob', st.obj o' = some ob' → ∃ ob2, upd st.obj o (some { ob with count := ob.count - 1 }) o' = some ob2 := by
    intro o' ob' e; unfold upd; split
    · exact ⟨_, rfl⟩
    · exact ⟨ob', e⟩
  have hnone : ∀ o', upd st.obj o (some { ob with count := ob.count - 1 }) o' = none ↔ st.obj o' = none := by
    intro o'; unfold upd; split
    · rename_i e; subst e; simp [ho]
    · rfl
  refine ⟨⟨hI.nodup, hI.lt, ?_, ?_, ?_, ?_, ?_, ?_, hI.logd, ?_⟩, fun _ h => h, rfl, rfl, rfl, rfl, ?_, fun _ h => h, ?_⟩
  · intro l hl hlh o' e; obtain ⟨ob', e'⟩ := hI.ref l hl hlh o' e; exact hex o' ob' e'
  · intro o' ho'; obtain ⟨ob', e'⟩ := hI.wref o' (by simp [ho']); exact hex o' ob' e'
  · intro o' ob' e
    obtain ⟨ob2, e1, e2, e3⟩ := hobj o' ob' e
    have h1 := hI.count o' ob2 e1
    have hcc : cnt { st with obj := upd st.obj o (some { ob with count := ob.count - 1 }) } h o' = cnt st h o' := rfl
    rw [hcc]
    rw [List.count_cons] at h1
    by_cases he : o' = o
    · subst he
      rw [ho] at e1; cases e1
      simp at h1 e3
      omega
    · simp [he, Ne.symm he] at h1 e3
      omega
  · intro o' ob' e; obtain ⟨ob2, e1, e2, -⟩ := hobj o' ob' e; rw [e2]; exact hI.memd o' ob2 e1
  · intro o' ob' e; obtain ⟨ob2, e1, e2, -⟩ := hobj o' ob' e; rw [e2]; exact hI.mem o' ob2 e1
  · intro o' ob' e; obtain ⟨ob2, e1, e2, -⟩ := hobj o' ob' e; exact hI.olt o' ob2 e1
  · intro o' ho'; obtain ⟨q1, q2⟩ := hI.log o' ho'; exact ⟨q1, (hnone o').2 q2⟩
  · intro o' ob' e; obtain ⟨ob2, e1, e2, -⟩ := hobj o' ob' e; exact ⟨ob2, e1, e2⟩
  · intro hA o' hlt e; exact hA o' hlt ((hnone o').1 e)

theorem Inv.dropNull {st w h} (hI : Inv st (none :: w) h) : Inv st w h := by
  refine ⟨hI.nodup, hI.lt, hI.ref, fun o ho => hI.wref o (by simp [ho]), fun o ob ho => ?_, hI.memd, hI.mem, hI.olt, hI.logd, hI.log⟩
  have := hI.count o ob ho; simpa using this

/-- Live references only become fewer. -/
theorem drain_live : ∀ (f : Nat) (w : List (Option Nat)) (st st' : St), drain f w st = .ok st' → ∀ l ∈ st'.live, l ∈ st.live
  | _, [], st, st', h => by simp [drain] at h; subst h; exact fun _ h => h
  | 0, _ :: _, _, _, h => by simp [drain] at h
  | f + 1, none :: w, st, st', h => by simp only [drain] at h; exact drain_live f w st st' h
  | f + 1, some o :: w, st, st', h => by
    unfold drain at h
    split at h
    · simp at h
    · split at h
      · intro l hl
        have := drain_live f _ _ st' h l hl
        exact (List.mem_filter.1 this).1
      · exact fun l hl => drain_live f _ _ st' h l hl

/-- If releasing ends with the reference being overwritten still alive, the invariant is kept. -/
theorem drain_inv {h : Option Nat} : ∀ (f : Nat) (w : List (Option Nat)) (st st' : St), Inv st w h → drain f w st = .ok st' →
    (∀ l, h = some l → l ∈ st'.live) → Inv st' [] h ∧ Sub st st'
  | _, [], st, st', hI, e, _ => by simp [drain] at e; subst e; exact ⟨hI, .refl _⟩
  | 0, _ :: _, _, _, _, e, _ => by simp [drain] at e
  | f + 1, none :: w, st, st', hI, e, hl => by
    simp only [drain] at e
    exact drain_inv f w st st' hI.dropNull e hl
  | f + 1, some o :: w, st, st', hI, e, hl => by
    obtain ⟨ob, ho⟩ := hI.wref o (by simp)
    unfold drain at e
    rw [ho] at e
    simp only at e
    split at e
    · rename_i h0
      have hh : ∀ l, h = some l → l ∉ ob.mem := by
        intro l hlh hm
        have := drain_live _ _ _ _ e l (hl l hlh)
        simp only [List.mem_filter, decide_eq_true_eq] at this
        exact this.2 hm
      obtain ⟨i1, s1, -⟩ := destroy_ok hI ho h0 hh
      obtain ⟨i2, s2⟩ := drain_inv f _ _ st' i1 e hl
      exact ⟨i2, s1.trans s2⟩
    · rename_i h0
      obtain ⟨i1, s1⟩ := release_ok hI ho h0
      obtain ⟨i2, s2⟩ := drain_inv f _ _ st' i1 e hl
      exact ⟨i2, s1.trans s2⟩

theorem Held.mem_cnt {st w h l o ob} (hI : Inv st w h) (hl : Held st h l) (ho : st.obj o = some ob) (hm : l ∈ ob.mem) : cnt st h o ≠ 0 := by
  have hown := (hI.mem o ob ho l hm).2
  cases hl with
  | root _ h2 => rw [hown] at h2; simp at h2
  | mem h1 h2 h3 h4 h5 =>
    have := (hI.mem _ _ h4 l h5).2
    rw [hown] at this
    simp at this; subst this
    have hlive := h1.live hI
    unfold cnt
    apply Nat.ne_of_gt
    rw [List.countP_pos_iff]
    exact ⟨_, hlive, by simp [h2, h3]⟩

/-- Releasing always ends without error if the reference being overwritten is held otherwise; held references stay. -/
theorem drain_held {h : Option Nat} : ∀ (f : Nat) (w : List (Option Nat)) (st : St), Inv st w h → w.length + st.live.length ≤ f →
    (∀ l, h = some l → Held st h l) → ∃ st', drain f w st = .ok st' ∧ ∀ l, Held st h l → Held st' h l
  | _, [], st, hI, _, _ => ⟨st, by simp [drain], fun _ h => h⟩
  | 0, _ :: _, _, _, hf, _ => by simp at hf
  | f + 1, none :: w, st, hI, hf, hh => by
    simp only [List.length_cons] at hf
    simp only [drain]
    exact drain_held f w st hI.dropNull (by omega) hh
  | f + 1, some o :: w, st, hI, hf, hh => by
    obtain ⟨ob, ho⟩ := hI.wref o (by simp)
    simp only [List.length_cons] at hf
    unfold drain
    rw [ho]
    simp only
    by_cases h0 : ob.count - 1 = 0
    · rw [if_pos h0]
      have hz : cnt st h o = 0 := by
        have hc := hI.count o ob ho
        rw [List.count_cons_self] at hc
        omega
      have hmem : ∀ l, h = some l → l ∉ ob.mem := fun l hl hm => (hh l hl).mem_cnt hI ho hm hz
      obtain ⟨i1, s1, -, -, hlen⟩ := destroy_ok hI ho h0 hmem
      have keep : ∀ l, Held st h l → Held { st with live := st.live.filter (fun l => decide (l ∉ ob.mem)), obj := upd st.obj o none, log := st.log ++ [o] } h l := by
        intro l hl
        induction hl with
        | root h1 h2 =>
          refine .root (List.mem_filter.2 ⟨h1, ?_⟩) h2
          simp only [decide_eq_true_eq]
          intro hm; have := (hI.mem o ob ho _ hm).2; rw [h2] at this; simp at this
        | mem h1 h2 h3 h4 h5 ih =>
          rename_i l' o' ob' l
          refine .mem ih h2 h3 (ob := ob') ?_ h5
          have hne : o' ≠ o := by
            intro e; subst e
            have : cnt st h o' ≠ 0 := by
              unfold cnt
              apply Nat.ne_of_gt
              rw [List.countP_pos_iff]
              exact ⟨_, h1.live hI, by simp [h2, h3]⟩
            exact this hz
          simp [upd, hne, h4]
      obtain ⟨st', e, k⟩ := drain_held f _ _ i1 (by
        simp only [List.length_append, List.length_map, List.length_reverse]; omega) (fun l hl => keep l (hh l hl))
      exact ⟨st', e, fun l hl => k l (keep l hl)⟩
    · rw [if_neg h0]
      obtain ⟨i1, s1⟩ := release_ok hI ho h0
      have keep : ∀ l, Held st h l → Held { st with obj := upd st.obj o (some { ob with count := ob.count - 1 }) } h l := by
        intro l hl
        induction hl with
        | root h1 h2 => exact .root h1 h2
        | mem h1 h2 h3 h4 h5 ih =>
          rename_i l' o' ob' l
          by_cases he : o' = o
          · subst he
            rw [ho] at h4; cases h4
            exact .mem ih h2 h3 (ob := { ob with count := ob.count - 1 }) (by simp [upd]) h5
          · exact .mem ih h2 h3 (ob := ob') (by simp [upd, he, h4]) h5
      obtain ⟨st', e, k⟩ := drain_held f _ _ i1 (by simp; omega) (fun l hl => keep l (hh l hl))
      exact ⟨st', e, fun l hl => k l (keep l hl)⟩

end Verif.Ref
