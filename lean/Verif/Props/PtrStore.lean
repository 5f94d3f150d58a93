import Verif.PtrStore
import Verif.RefLemmas
/-
C16: lifetime of the objects allocated by unpacking.
-/
namespace Verif.PtrStore
open Verif.Graph (Out)
open Verif.Ref (upd countP_split)

/-! ### Specification -/

/-- Number of owners of a store. -/
def owners (st : St) (a : Nat) : Nat := (st.live.filter (fun l => st.d l == some a)).length

/-- What the property asks of a state. -/
structure Good (st : St) : Prop where
  once : st.log.Nodup
  owned : ∀ l ∈ st.live, ∀ a, st.d l = some a → a ∉ st.log
  freed : ∀ a, a < st.next → owners st a = 0 → a ∈ st.log

/-- The operations only use owners that exist. -/
def Op.uses : Op → List Nat
  | .null | .make => []
  | .copy s => [s]
  | .assign l s => [l, s]
  | .destroy l => [l]

def Legal : List Op → St → Prop
  | [], _ => True
  | op :: ops, st => (∀ l ∈ op.uses, l ∈ st.live) ∧ ∀ st', step op st = .ok st' → Legal ops st'

/-! ### Invariant -/

def own (st : St) (a : Nat) : Nat := st.live.countP (fun l => decide (st.d l = some a))

theorem own_owners (st : St) (a : Nat) : own st a = owners st a := by
  unfold own owners
  rw [List.countP_eq_length_filter]
  congr 1
  apply List.filter_congr
  intro l _
  by_cases e : st.d l = some a <;> simp [e]

/-- `exact` says that nothing has been assigned to. -/
structure Inv (exact : Prop) (st : St) : Prop where
  nodup : st.live.Nodup
  lt : ∀ l ∈ st.live, l < st.nown
  ref : ∀ l ∈ st.live, ∀ a, st.d l = some a → st.cnt a ≠ none
  count : ∀ a c, st.cnt a = some c → (own st a : Int) ≤ c + 1 ∧ 0 ≤ c ∧ (exact → (own st a : Int) = c + 1)
  alt : ∀ a, st.cnt a ≠ none → a < st.next
  logd : st.log.Nodup
  log : ∀ a ∈ st.log, a < st.next ∧ st.cnt a = none
  all : ∀ a, a < st.next → st.cnt a = none → a ∈ st.log

theorem own_add {st : St} (h : st.nown ∉ st.live) (x : Option Nat) (a : Nat) : own (addOwner x st) a = own st a + if x = some a then 1 else 0 := by
  unfold own addOwner
  simp only [List.countP_cons]
  have : st.live.countP (fun l => decide (upd st.d st.nown x l = some a)) = st.live.countP (fun l => decide (st.d l = some a)) := by
    apply List.countP_congr
    intro l hl
    have : l ≠ st.nown := fun e => h (e ▸ hl)
    simp [upd, this]
  rw [this]
  simp [upd]

theorem own_upd {st : St} (hn : st.live.Nodup) {l : Nat} (hl : l ∈ st.live) (x : Option Nat) (a : Nat) :
    own { st with d := upd st.d l x } a + (if st.d l = some a then 1 else 0) = own st a + if x = some a then 1 else 0 := by
  unfold own
  rw [countP_split hn hl, countP_split (p := fun l => decide (st.d l = some a)) hn hl]
  have : st.live.countP (fun y => decide (y ≠ l) && decide (upd st.d l x y = some a))
      = st.live.countP (fun y => decide (y ≠ l) && decide (st.d y = some a)) := by
    apply List.countP_congr
    intro y _
    by_cases e : y = l <;> simp [upd, e]
  simp only [this]
  simp only [upd, if_true, decide_eq_true_eq]
  omega

theorem own_remove {st : St} (hn : st.live.Nodup) {l : Nat} (hl : l ∈ st.live) (a : Nat) :
    own { st with live := st.live.filter (· ≠ l) } a + (if st.d l = some a then 1 else 0) = own st a := by
  unfold own
  rw [List.countP_filter, countP_split (p := fun l => decide (st.d l = some a)) hn hl]
  have : st.live.countP (fun y => decide (st.d y = some a) && decide (y ≠ l)) = st.live.countP (fun y => decide (y ≠ l) && decide (st.d y = some a)) := by
    apply List.countP_congr; intro y _; simp [and_comm]
  simp only [this, decide_eq_true_eq]
  omega

theorem own_pos {st : St} {l a : Nat} (hl : l ∈ st.live) (h : st.d l = some a) : 0 < own st a := by
  unfold own
  rw [List.countP_pos_iff]
  exact ⟨l, hl, by simp [h]⟩

theorem step_ok {exact : Prop} {st : St} (hI : Inv exact st) (op : Op) (hu : ∀ l ∈ op.uses, l ∈ st.live) (hx : exact → ∀ l s, op ≠ .assign l s) :
    ∃ st', step op st = .ok st' ∧ Inv exact st' := by
  have hnew : st.nown ∉ st.live := fun hm => Nat.lt_irrefl _ (hI.lt _ hm)
  have hno : st.cnt st.next = none := by
    apply Classical.byContradiction; intro h; exact Nat.lt_irrefl _ (hI.alt _ h)
  have addlt : ∀ (s : St) x, s.nown = st.nown → s.live = st.live → ∀ l ∈ (addOwner x s).live, l < (addOwner x s).nown := by
    intro s x h1 h2 l hl
    simp only [addOwner, List.mem_cons, h1, h2] at hl ⊢
    rcases hl with rfl | hl
    · omega
    · have := hI.lt l hl; omega
  cases op with
  | null =>
    refine ⟨_, rfl, List.nodup_cons.2 ⟨hnew, hI.nodup⟩, addlt st none rfl rfl, ?_, ?_, hI.alt, hI.logd, hI.log, hI.all⟩
    · intro l hl a h
      simp only [addOwner, List.mem_cons, upd] at hl h
      split at h
      · simp at h
      · rcases hl with rfl | hl
        · simp at *
        · exact hI.ref l hl a h
    · intro a c h
      rw [own_add hnew]
      simpa using hI.count a c h
  | make =>
    refine ⟨_, rfl, List.nodup_cons.2 ⟨hnew, hI.nodup⟩, addlt { st with next := st.next + 1, cnt := upd st.cnt st.next (some 0) } _ rfl rfl, ?_, ?_, ?_, hI.logd, ?_, ?_⟩
    · intro l hl a h
      simp only [addOwner, List.mem_cons, upd] at hl h ⊢
      split
      · simp
      · split at h
        · simp at h; omega
        · rcases hl with rfl | hl
          · simp at *
          · exact hI.ref l hl a h
    · intro a c h
      rw [own_add (st := { st with next := st.next + 1, cnt := upd st.cnt st.next (some 0) }) hnew]
      have ho : own { st with next := st.next + 1, cnt := upd st.cnt st.next (some 0) } a = own st a := rfl
      rw [ho]
      simp only [addOwner, upd] at h
      split at h
      · rename_i e; subst e
        simp at h; subst h
        have : own st st.next = 0 := by
          unfold own; rw [List.countP_eq_zero]
          intro l hl h; simp at h; exact hI.ref l hl _ h hno
        simp [this]
      · rename_i e
        simp [Ne.symm e]
        exact hI.count a c h
    · intro a h
      simp only [addOwner, upd] at h ⊢
      split at h
      · omega
      · have := hI.alt a h; omega
    · intro a h
      obtain ⟨h1, h2⟩ := hI.log a h
      refine ⟨by simp only [addOwner]; omega, ?_⟩
      simp only [addOwner, upd]
      split
      · omega
      · exact h2
    · intro a h1 h2
      simp only [addOwner, upd] at h1 h2 ⊢
      split at h2
      · simp at h2
      · exact hI.all a (by omega) h2
  | copy s =>
    have hs : s ∈ st.live := hu s (by simp [Op.uses])
    cases e : st.d s with
    | none =>
      refine ⟨addOwner none st, by simp [step, hs, e, inc, Out.bind], List.nodup_cons.2 ⟨hnew, hI.nodup⟩, addlt st none rfl rfl, ?_, ?_, hI.alt, hI.logd, hI.log, hI.all⟩
      · intro l hl a h
        simp only [addOwner, List.mem_cons, upd] at hl h
        split at h
        · simp at h
        · rcases hl with rfl | hl
          · simp at *
          · exact hI.ref l hl a h
      · intro a c h
        rw [own_add hnew]
        simpa using hI.count a c h
    | some b =>
      obtain ⟨cb, hcb⟩ := Option.ne_none_iff_exists'.1 (hI.ref s hs b e)
      refine ⟨addOwner (some b) { st with cnt := upd st.cnt b (some (cb + 1)) }, by simp [step, hs, e, inc, hcb, Out.bind], List.nodup_cons.2 ⟨hnew, hI.nodup⟩,
        addlt { st with cnt := upd st.cnt b (some (cb + 1)) } _ rfl rfl, ?_, ?_, ?_, hI.logd, ?_, ?_⟩
      · intro l hl a h
        simp only [addOwner, List.mem_cons, upd] at hl h ⊢
        split
        · simp
        · rename_i hne
          split at h
          · simp at h; exact absurd h.symm hne
          · rcases hl with rfl | hl
            · simp at *
            · exact hI.ref l hl a h
      · intro a c h
        rw [own_add (st := { st with cnt := upd st.cnt b (some (cb + 1)) }) hnew]
        have ho : own { st with cnt := upd st.cnt b (some (cb + 1)) } a = own st a := rfl
        rw [ho]
        simp only [addOwner, upd] at h
        split at h
        · rename_i e'; subst e'
          simp at h; subst h
          have := hI.count a cb hcb
          simp
          grind
        · rename_i e'
          simp [Ne.symm e']
          exact hI.count a c h
      · intro a h
        simp only [addOwner, upd] at h ⊢
        split at h
        · rename_i e'; subst e'; exact hI.alt a (by simp [hcb])
        · exact hI.alt a h
      · intro a h
        obtain ⟨h1, h2⟩ := hI.log a h
        refine ⟨h1, ?_⟩
        simp only [addOwner, upd]
        split
        · rename_i e'; subst e'; rw [hcb] at h2; simp at h2
        · exact h2
      · intro a h1 h2
        simp only [addOwner, upd] at h1 h2 ⊢
        split at h2
        · simp at h2
        · exact hI.all a h1 h2
  | assign l s =>
    have hl : l ∈ st.live := hu l (by simp [Op.uses])
    have hs : s ∈ st.live := hu s (by simp [Op.uses])
    have hxf : ¬ exact := fun hx' => hx hx' l s rfl
    cases e : st.d s with
    | none =>
      refine ⟨{ st with d := upd st.d l none }, by simp [step, hl, hs, e, inc], hI.nodup, hI.lt, ?_, ?_, hI.alt, hI.logd, hI.log, hI.all⟩
      · intro x hx' a h
        simp only [upd] at h
        split at h
        · simp at h
        · exact hI.ref x hx' a h
      · intro a c h
        have := own_upd hI.nodup hl none a
        have h2 := hI.count a c h
        simp only [reduceCtorEq, if_false] at this
        refine ⟨?_, h2.2.1, fun h => absurd h hxf⟩
        split at this <;> omega
    | some b =>
      obtain ⟨cb, hcb⟩ := Option.ne_none_iff_exists'.1 (hI.ref s hs b e)
      refine ⟨{ st with d := upd st.d l (some b), cnt := upd st.cnt b (some (cb + 1)) }, by simp [step, hl, hs, e, inc, hcb], hI.nodup, hI.lt, ?_, ?_, ?_, hI.logd, ?_, ?_⟩
      · intro x hx' a h
        simp only [upd] at h ⊢
        split
        · simp
        · rename_i hne
          split at h
          · simp at h; exact absurd h.symm hne
          · exact hI.ref x hx' a h
      · intro a c h
        have h3 := own_upd hI.nodup hl (some b) a
        have ho : own { st with d := upd st.d l (some b), cnt := upd st.cnt b (some (cb + 1)) } a = own { st with d := upd st.d l (some b) } a := rfl
        rw [ho]
        simp only [upd] at h
        refine ⟨?_, ?_, fun h => absurd h hxf⟩
        · split at h
          · rename_i e'; subst e'
            simp at h; subst h
            have := hI.count a cb hcb
            simp only [if_true] at h3
            split at h3 <;> omega
          · rename_i e'
            have := hI.count a c h
            simp only [Option.some.injEq, Ne.symm e', if_false] at h3
            split at h3 <;> omega
        · split at h
          · simp at h; subst h; have := hI.count b cb hcb; omega
          · exact (hI.count a c h).2.1
      · intro a h
        simp only [upd] at h ⊢
        split at h
        · rename_i e'; subst e'; exact hI.alt a (by simp [hcb])
        · exact hI.alt a h
      · intro a h
        obtain ⟨h1, h2⟩ := hI.log a h
        refine ⟨h1, ?_⟩
        simp only [upd]
        split
        · rename_i e'; subst e'; rw [hcb] at h2; simp at h2
        · exact h2
      · intro a h1 h2
        simp only [upd] at h1 h2 ⊢
        split at h2
        · simp at h2
        · exact hI.all a h1 h2
  | destroy l =>
    have hl : l ∈ st.live := hu l (by simp [Op.uses])
    have hnd : (st.live.filter (· ≠ l)).Nodup := List.Nodup.sublist List.filter_sublist hI.nodup
    have hlt : ∀ x ∈ st.live.filter (· ≠ l), x < st.nown := fun x hx => hI.lt x (List.mem_filter.1 hx).1
    cases e : st.d l with
    | none =>
      refine ⟨{ st with live := st.live.filter (· ≠ l) }, by simp [step, hl, e, dec], hnd, hlt, fun x hx => hI.ref x (List.mem_filter.1 hx).1, ?_, hI.alt, hI.logd, hI.log, hI.all⟩
      intro a c h
      have := own_remove hI.nodup hl a
      simp only [e, reduceCtorEq, if_false, Nat.add_zero] at this
      rw [this]; exact hI.count a c h
    | some b =>
      obtain ⟨cb, hcb⟩ := Option.ne_none_iff_exists'.1 (hI.ref l hl b e)
      have hcnt := hI.count b cb hcb
      have hrem := own_remove hI.nodup hl
      have hrb := hrem b
      simp only [e, if_true] at hrb
      by_cases h0 : cb = 0
      · subst h0
        have hz : own { st with live := st.live.filter (· ≠ l) } b = 0 := by omega
        have hnb : ∀ x ∈ st.live.filter (· ≠ l), st.d x ≠ some b := by
          intro x hx h
          have := own_pos (st := { st with live := st.live.filter (· ≠ l) }) hx h
          omega
        refine ⟨{ st with live := st.live.filter (· ≠ l), cnt := upd st.cnt b none, log := st.log ++ [b] }, by simp [step, hl, e, dec, hcb], hnd, hlt, ?_, ?_, ?_, ?_, ?_, ?_⟩
        · intro x hx a h
          simp only [upd]
          split
          · rename_i e'; subst e'; exact absurd h (hnb x hx)
          · exact hI.ref x (List.mem_filter.1 hx).1 a h
        · intro a c h
          simp only [upd] at h
          split at h
          · simp at h
          · rename_i e'
            have h1 := hrem a
            simp only [e, Option.some.injEq, Ne.symm e', if_false, Nat.add_zero] at h1
            have ho : own { st with live := st.live.filter (· ≠ l), cnt := upd st.cnt b none, log := st.log ++ [b] } a = own { st with live := st.live.filter (· ≠ l) } a := rfl
            rw [ho, h1]; exact hI.count a c h
        · intro a h
          simp only [upd] at h
          split at h
          · simp at h
          · exact hI.alt a h
        · rw [List.nodup_append]
          refine ⟨hI.logd, by simp, ?_⟩
          intro x hx y hy e'
          simp at hy; subst hy; subst e'
          rw [(hI.log _ hx).2] at hcb; simp at hcb
        · intro a h
          simp only [List.mem_append, List.mem_singleton] at h
          rcases h with h | rfl
          · obtain ⟨h1, h2⟩ := hI.log a h
            exact ⟨h1, by simp only [upd]; split; rfl; exact h2⟩
          · exact ⟨hI.alt a (by simp [hcb]), by simp [upd]⟩
        · intro a h1 h2
          simp only [upd] at h2
          simp only [List.mem_append, List.mem_singleton]
          split at h2
          · right; assumption
          · left; exact hI.all a h1 h2
      · refine ⟨{ st with live := st.live.filter (· ≠ l), cnt := upd st.cnt b (some (cb - 1)) }, by simp [step, hl, e, dec, hcb, h0], hnd, hlt, ?_, ?_, ?_, hI.logd, ?_, ?_⟩
        · intro x hx a h
          simp only [upd]
          split
          · simp
          · exact hI.ref x (List.mem_filter.1 hx).1 a h
        · intro a c h
          have ho : own { st with live := st.live.filter (· ≠ l), cnt := upd st.cnt b (some (cb - 1)) } a = own { st with live := st.live.filter (· ≠ l) } a := rfl
          rw [ho]
          simp only [upd] at h
          split at h
          · rename_i e'; subst e'
            simp at h; subst h
            refine ⟨by omega, by omega, fun hx => by have := hcnt.2.2 hx; omega⟩
          · rename_i e'
            have h1 := hrem a
            simp only [e, Option.some.injEq, Ne.symm e', if_false, Nat.add_zero] at h1
            rw [h1]; exact hI.count a c h
        · intro a h
          simp only [upd] at h
          split at h
          · rename_i e'; subst e'; exact hI.alt a (by simp [hcb])
          · exact hI.alt a h
        · intro a h
          obtain ⟨h1, h2⟩ := hI.log a h
          refine ⟨h1, ?_⟩
          simp only [upd]
          split
          · rename_i e'; subst e'; rw [hcb] at h2; simp at h2
          · exact h2
        · intro a h1 h2
          simp only [upd] at h2
          split at h2
          · simp at h2
          · exact hI.all a h1 h2

theorem run_ok {exact : Prop} : ∀ (ops : List Op) (st : St), Inv exact st → Legal ops st → (exact → ∀ l s, .assign l s ∉ ops) →
    ∃ st', run ops st = .ok st' ∧ Inv exact st'
  | [], st, hI, _, _ => ⟨st, rfl, hI⟩
  | op :: ops, st, hI, hL, hx => by
    obtain ⟨s1, e1, i1⟩ := step_ok hI op hL.1 (fun h l s e => hx h l s (by simp [e]))
    obtain ⟨s2, e2, i2⟩ := run_ok ops s1 i1 (hL.2 s1 e1) (fun h l s hm => hx h l s (by simp [hm]))
    exact ⟨s2, by simp [run, e1, Out.bind, e2], i2⟩

theorem init_inv (exact : Prop) : Inv exact St.init := by
  refine ⟨by simp [St.init], by simp [St.init], by simp [St.init], by simp [St.init], by simp [St.init], by simp [St.init], by simp [St.init],
    by intro a h; simp [St.init] at h⟩

/-- C16 without assignments (this covers what `std::vector<PtrStoreRef>` does when it grows by copying): no undefined behaviour, and a
store is deleted exactly once, as soon as it has no owner. Missing: assignment, for which the property is false (below). -/
theorem C16_lifetime_partial (ops : List Op) (hL : Legal ops St.init) (hna : ∀ l s, .assign l s ∉ ops) : ∃ st, run ops St.init = .ok st ∧ Good st := by
  obtain ⟨st, e, i⟩ := run_ok (exact := True) ops _ (init_inv _) hL (fun _ => hna)
  refine ⟨st, e, i.logd, fun l hl a h hm => i.ref l hl a h (i.log a hm).2, fun a hlt h => ?_⟩
  apply i.all a hlt
  apply Classical.byContradiction
  intro hne
  obtain ⟨c, hc⟩ := Option.ne_none_iff_exists'.1 hne
  have := i.count a c hc
  rw [own_owners, h] at this
  have := this.2.2 trivial
  omega

/-- C16 with assignments: never deleted early or twice. -/
theorem C16_not_early_partial (ops : List Op) (hL : Legal ops St.init) :
    ∃ st, run ops St.init = .ok st ∧ st.log.Nodup ∧ ∀ l ∈ st.live, ∀ a, st.d l = some a → a ∉ st.log := by
  obtain ⟨st, e, i⟩ := run_ok (exact := False) ops _ (init_inv _) hL (fun h => h.elim)
  exact ⟨st, e, i.logd, fun l hl a h hm => i.ref l hl a h (i.log a hm).2⟩

/-- C16 fails for assignment: the store of the left hand side is never deleted, whatever happens afterwards to its owners (here: none
is left). -/
theorem C16_assign_fails : ∃ st, run [.make, .make, .assign 0 1, .destroy 0, .destroy 1] St.init = .ok st ∧ st.live = [] ∧ owners st 0 = 0 ∧ 0 ∉ st.log := by
  refine ⟨_, rfl, by decide, by decide, by decide⟩

/-- Self assignment leaks too. -/
theorem C16_self_assign_fails : ∃ st, run [.make, .assign 0 0, .destroy 0] St.init = .ok st ∧ st.live = [] ∧ owners st 0 = 0 ∧ 0 ∉ st.log := by
  refine ⟨_, rfl, by decide, by decide, by decide⟩

example : ∃ st, run [.make, .copy 0, .destroy 0, .destroy 1] St.init = .ok st ∧ st.log = [0] := ⟨_, rfl, rfl⟩
example : Legal [.make, .copy 0, .destroy 0, .destroy 1] St.init := by
  refine ⟨by simp [Op.uses], fun s h => ?_⟩
  simp [step] at h; subst h
  refine ⟨by simp [Op.uses, addOwner, St.init], fun s h => ?_⟩
  simp [step, addOwner, St.init, upd, inc, Out.bind] at h; subst h
  refine ⟨by simp [Op.uses], fun s h => ?_⟩
  simp [step, upd, dec] at h; subst h
  exact ⟨by simp [Op.uses], fun s h => trivial⟩

end Verif.PtrStore
