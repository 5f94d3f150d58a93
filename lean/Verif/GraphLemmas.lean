import Verif.Graph
/-
Lemmas about graph packing: termination and invariants of the packer, and the unpacker following it.
-/
namespace Verif.Graph

/-! ### Sums over the objects that have no ID yet -/

/-- Sum of `w` over the elements of `L` not in `M`. -/
def remw (w : Nat → Nat) (L M : List Nat) : Nat := ((L.filter (fun a => decide (a ∉ M))).map w).sum

theorem remw_cons (w : Nat → Nat) (x : Nat) (L M : List Nat) :
    remw w (x :: L) M = (if x ∈ M then 0 else w x) + remw w L M := by
  unfold remw
  by_cases h : x ∈ M <;> simp [h]

theorem remw_notin (w : Nat → Nat) (a : Nat) (M : List Nat) : ∀ L, a ∉ L → remw w L (M ++ [a]) = remw w L M
  | [], _ => rfl
  | x :: L, h => by
    simp only [List.mem_cons, not_or] at h
    rw [remw_cons, remw_cons, remw_notin w a M L h.2]
    have : x ∈ M ++ [a] ↔ x ∈ M := by simp [show x ≠ a from fun e => h.1 e.symm]
    simp only [this]

theorem remw_add (w : Nat → Nat) (a : Nat) (M : List Nat) (hM : a ∉ M) : ∀ L, L.Nodup → a ∈ L →
    remw w L (M ++ [a]) + w a = remw w L M
  | [], _, h => by simp at h
  | x :: L, hn, h => by
    rw [List.nodup_cons] at hn
    rw [remw_cons, remw_cons]
    by_cases e : x = a
    · subst e
      rw [remw_notin w x M L hn.1]
      simp [hM]; omega
    · have h' : a ∈ L := by simp at h; rcases h with h | h; exact absurd h.symm e; exact h
      have := remw_add w a M hM L hn.2 h'
      have e2 : x ∈ M ++ [a] ↔ x ∈ M := by simp [e]
      simp only [e2]
      omega

/-! ### The packer alone -/

/-- Pointers in a member. -/
def Fld.ptrs : Fld → List (Option Nat)
  | .data _ => []
  | .ptr p => [p]
  | .vec ps => ps

/-- All pointers in an object. -/
def ptrsOf (fs : List Fld) : List (Option Nat) := fs.flatMap Fld.ptrs

/-- A finite set of objects (addresses below `N`) closed under following pointers. -/
structure Closed (G : Nat → List Fld) (N : Nat) (R : Nat → Prop) : Prop where
  lt : ∀ a, R a → a < N
  step : ∀ a, R a → ∀ b, some b ∈ ptrsOf (G a) → R b

def okPtr (R : Nat → Prop) (p : Option Nat) : Prop := ∀ a, p = some a → R a

/-- Invariant of the packer's state. -/
structure PInv (R : Nat → Prop) (st : PSt) : Prop where
  nodup : st.map.Nodup
  inR : ∀ a ∈ st.map, R a
  pend : ∀ p ∈ st.restart, okPtr R p

/-- What a step of the packer does: the map grows, the output grows, and the number of deferred pointers is bounded by `c` plus
the number of pointers in the newly mapped objects. -/
structure PStep (G : Nat → List Fld) (N : Nat) (R : Nat → Prop) (c : Nat) (st st' : PSt) : Prop where
  inv : PInv R st'
  pre : st.map <+: st'.map
  out : ∃ toks, st'.out = st.out ++ toks
  pot : st'.restart.length + remw (fun a => (ptrsOf (G a)).length) (List.range N) st'.map ≤
    st.restart.length + remw (fun a => (ptrsOf (G a)).length) (List.range N) st.map + c
  fuel : remw (fun _ => 1) (List.range N) st'.map ≤ remw (fun _ => 1) (List.range N) st.map

theorem PStep.refl {G N R st} (h : PInv R st) : PStep G N R 0 st st :=
  ⟨h, List.prefix_rfl, ⟨[], by simp⟩, by omega, by omega⟩

theorem PStep.trans {G N R c d s t u} (h : PStep G N R c s t) (k : PStep G N R d t u) : PStep G N R (c + d) s u := by
  obtain ⟨t1, e1⟩ := h.out
  obtain ⟨t2, e2⟩ := k.out
  have p1 := h.pot
  have p2 := k.pot
  have f1 := h.fuel
  have f2 := k.fuel
  exact ⟨k.inv, h.pre.trans k.pre, ⟨t1 ++ t2, by rw [e2, e1, List.append_assoc]⟩, by omega, by omega⟩

theorem PStep.mono {G N R c d s t} (h : PStep G N R c s t) (hcd : c ≤ d) : PStep G N R d s t := by
  have := h.pot
  exact ⟨h.inv, h.pre, h.out, by omega, h.fuel⟩

theorem pstep_emit {G N R} {st : PSt} (h : PInv R st) (n : Nat) : PStep G N R 0 st (st.emit n) :=
  ⟨⟨h.nodup, h.inR, h.pend⟩, List.prefix_rfl, ⟨[n], rfl⟩, by simp [PSt.emit], by simp [PSt.emit]⟩

theorem pack_vec_ok {G N R} {f : Option Nat → PSt → Option PSt} {B : Nat}
    (hf : ∀ p st, okPtr R p → PInv R st → remw (fun _ => 1) (List.range N) st.map ≤ B → ∃ st', f p st = some st' ∧ PStep G N R 1 st st') :
    ∀ (ps : List (Option Nat)) (st : PSt), (∀ p ∈ ps, okPtr R p) → PInv R st → remw (fun _ => 1) (List.range N) st.map ≤ B →
    ∃ st', packVec f ps st = some st' ∧ PStep G N R ps.length st st'
  | [], st, _, hi, _ => ⟨st, rfl, PStep.refl hi⟩
  | p :: ps, st, hp, hi, hB => by
    obtain ⟨s1, e1, q1⟩ := hf p st (hp p (by simp)) hi hB
    obtain ⟨s2, e2, q2⟩ := pack_vec_ok hf ps s1 (fun q hq => hp q (by simp [hq])) q1.inv (Nat.le_trans q1.fuel hB)
    exact ⟨s2, by simp [packVec, e1, e2], (q1.trans q2).mono (by simp; omega)⟩

theorem pack_fields_ok {G N R} {f : Option Nat → PSt → Option PSt} {B : Nat}
    (hf : ∀ p st, okPtr R p → PInv R st → remw (fun _ => 1) (List.range N) st.map ≤ B → ∃ st', f p st = some st' ∧ PStep G N R 1 st st') :
    ∀ (fs : List Fld) (st : PSt), (∀ p ∈ ptrsOf fs, okPtr R p) → PInv R st → remw (fun _ => 1) (List.range N) st.map ≤ B →
    ∃ st', packFields f fs st = some st' ∧ PStep G N R (ptrsOf fs).length st st'
  | [], st, _, hi, _ => ⟨st, rfl, PStep.refl hi⟩
  | .data n :: fs, st, hp, hi, hB => by
    have q0 := pstep_emit (G := G) (N := N) hi n
    obtain ⟨s2, e2, q2⟩ := pack_fields_ok hf fs (st.emit n) (fun q hq => hp q (by simpa [ptrsOf, Fld.ptrs] using hq)) q0.inv
      (Nat.le_trans q0.fuel hB)
    exact ⟨s2, by simp [packFields, e2], (q0.trans q2).mono (by simp [ptrsOf, Fld.ptrs])⟩
  | .ptr p :: fs, st, hp, hi, hB => by
    obtain ⟨s1, e1, q1⟩ := hf p st (hp p (by simp [ptrsOf, Fld.ptrs])) hi hB
    obtain ⟨s2, e2, q2⟩ := pack_fields_ok hf fs s1 (fun q hq => hp q (by
      simp only [ptrsOf, List.flatMap_cons, List.mem_append]; exact .inr hq)) q1.inv (Nat.le_trans q1.fuel hB)
    exact ⟨s2, by simp [packFields, e1, e2], (q1.trans q2).mono (by simp [ptrsOf, Fld.ptrs]; omega)⟩
  | .vec ps :: fs, st, hp, hi, hB => by
    have q0 := pstep_emit (G := G) (N := N) hi ps.length
    obtain ⟨s1, e1, q1⟩ := pack_vec_ok hf ps (st.emit ps.length) (fun q hq => hp q (by
      simp only [ptrsOf, List.flatMap_cons, List.mem_append]; exact .inl hq)) q0.inv (Nat.le_trans q0.fuel hB)
    obtain ⟨s2, e2, q2⟩ := pack_fields_ok hf fs s1 (fun q hq => hp q (by
      simp only [ptrsOf, List.flatMap_cons, List.mem_append]; exact .inr hq)) q1.inv (Nat.le_trans q1.fuel (Nat.le_trans q0.fuel hB))
    exact ⟨s2, by simp [packFields, e1, e2], ((q0.trans q1).trans q2).mono (by simp [ptrsOf, Fld.ptrs])⟩

theorem pack_ptr_ok {G N R} (hc : Closed G N R) (rmax : Nat) : ∀ (fuel nd lvl : Nat) (p : Option Nat) (st : PSt), okPtr R p → PInv R st →
    remw (fun _ => 1) (List.range N) st.map < fuel →
    ∃ st', packPtr G rmax fuel nd lvl p st = some st' ∧ PStep G N R 1 st st' ∧ (lvl + 1 ≠ rmax → PStep G N R 0 st st')
  | 0, _, _, _, _, _, _, h => by omega
  | fuel + 1, nd, lvl, p, st, hp, hi, hF => by
    have hi' : PInv R { st with deep := max st.deep nd } := ⟨hi.nodup, hi.inR, hi.pend⟩
    unfold packPtr
    by_cases hl : lvl + 1 = rmax
    · simp only [hl, if_true]
      refine ⟨_, rfl, ⟨⟨hi.nodup, hi.inR, ?_⟩, List.prefix_rfl, ⟨[], by simp⟩, by simp; omega, by simp⟩, fun h => absurd rfl h⟩
      intro q hq; simp at hq; rcases hq with rfl | hq; exact hp; exact hi.pend q hq
    · simp only [hl, if_false]
      have key : ∀ o : Option PSt, (∃ st', o = some st' ∧ PStep G N R 0 { st with deep := max st.deep nd } st') →
          ∃ st', o = some st' ∧ PStep G N R 1 st st' ∧ (lvl + 1 ≠ rmax → PStep G N R 0 st st') := by
        rintro o ⟨st', e, q⟩
        have q0 : PStep G N R 0 st { st with deep := max st.deep nd } := ⟨hi', List.prefix_rfl, ⟨[], by simp⟩, by simp, by simp⟩
        exact ⟨st', e, (q0.trans q).mono (by omega), fun _ => q0.trans q⟩
      apply key
      cases p with
      | none => exact ⟨_, rfl, pstep_emit hi' 0⟩
      | some a =>
        dsimp only
        cases hx : st.map.idxOf? a with
        | some i => exact ⟨_, rfl, pstep_emit hi' _⟩
        | none =>
          have hna : a ∉ st.map := by simpa using hx
          have ha : R a := hp a rfl
          have hr : a ∈ List.range N := by simpa using hc.lt a ha
          have w1 := remw_add (fun _ => 1) a st.map hna (List.range N) List.nodup_range hr
          have w2 := remw_add (fun a => (ptrsOf (G a)).length) a st.map hna (List.range N) List.nodup_range hr
          have i1 : PInv R ({ st with deep := max st.deep nd, map := st.map ++ [a] }.emit (st.map.length + 1)) := by
            refine ⟨?_, ?_, hi.pend⟩
            · rw [PSt.emit]; simp only
              rw [List.nodup_append]
              refine ⟨hi.nodup, by simp, ?_⟩
              intro x hx1 y hy e; simp at hy; subst hy; subst e; exact hna hx1
            · intro x hx; simp [PSt.emit] at hx; rcases hx with hx | rfl; exact hi.inR x hx; exact ha
          obtain ⟨s', e', q'⟩ := pack_fields_ok (G := G) (N := N) (R := R) (f := packPtr G rmax fuel (nd + 1) (lvl + 1)) (B := fuel - 1)
            (by
              intro q s hq hs hB
              obtain ⟨s', e, q1, -⟩ := pack_ptr_ok hc rmax fuel (nd + 1) (lvl + 1) q s hq hs (by omega)
              exact ⟨s', e, q1⟩) (G a)
            ({ st with deep := max st.deep nd, map := st.map ++ [a] }.emit (st.map.length + 1))
            (fun q hq b hb => hc.step a ha b (hb ▸ hq)) i1 (by simp only [PSt.emit]; omega)
          refine ⟨s', e', q'.inv, ?_, ?_, ?_, ?_⟩
          · exact (List.prefix_append st.map [a]).trans q'.pre
          · obtain ⟨t, ht⟩ := q'.out
            exact ⟨(st.map.length + 1) :: t, by rw [ht]; simp [PSt.emit]⟩
          · have := q'.pot
            simp only [PSt.emit] at this ⊢
            omega
          · have := q'.fuel
            simp only [PSt.emit] at this ⊢
            omega

/-- Weight that decreases with every restart. -/
def weight (G : Nat → List Fld) (N : Nat) (st : PSt) : Nat :=
  st.restart.length + remw (fun a => (ptrsOf (G a)).length) (List.range N) st.map

theorem packLoop_nil (f k) (st : PSt) (h : st.restart = []) : packLoop f k st = some st := by
  unfold packLoop; rw [h]

/-- `pack_graph` terminates if the recursion limit is not 1: with enough fuel the result is defined, the statics are
left empty. -/
theorem pack_root_ok {G N R} (hc : Closed G N R) (rmax : Nat) (hr : rmax ≠ 1) (F : Nat) (hF : N < F) :
    ∀ (k nd : Nat) (p : Option Nat) (st : PSt), okPtr R p → PInv R st → weight G N st < k →
    ∃ st', packRoot G rmax F k nd p st = some st' ∧ st'.restart = [] ∧ st'.map = []
  | 0, _, _, _, _, _, h => by omega
  | k + 1, nd, p, st, hp, hi, hk => by
    have hle : ∀ M L : List Nat, remw (fun _ => 1) L M ≤ L.length := by
      intro M L; induction L with
      | nil => simp [remw]
      | cons x L ih => rw [remw_cons]; simp only [List.length_cons]; split <;> omega
    obtain ⟨s1, e1, -, q1⟩ := pack_ptr_ok hc rmax F nd 0 p (st.emit rmax) hp (pstep_emit (G := G) (N := N) hi rmax).inv
      (by have := hle (st.emit rmax).map (List.range N); rw [List.length_range] at this; omega)
    have q1 := q1 (by omega)
    have hw : weight G N s1 ≤ weight G N st := by have := q1.pot; simpa [weight, PSt.emit] using this
    unfold packRoot
    rw [e1]
    simp only [Option.bind_some]
    cases hs : s1.restart with
    | nil =>
      rw [packLoop_nil _ _ _ hs]
      exact ⟨_, rfl, hs, rfl⟩
    | cons r rs =>
      have hpos : 0 < k := by
        have : weight G N s1 ≥ 1 := by simp [weight, hs]; omega
        omega
      obtain ⟨k', rfl⟩ : ∃ k', k = k' + 1 := ⟨k - 1, by omega⟩
      have i2 : PInv R { s1 with restart := rs } := ⟨q1.inv.nodup, q1.inv.inR, fun q hq => q1.inv.pend q (by simp [hs, hq])⟩
      have hrr : okPtr R r := q1.inv.pend r (by simp [hs])
      obtain ⟨s2, e2, r2, m2⟩ := pack_root_ok hc rmax hr F hF (k' + 1) (nd + 1) r { s1 with restart := rs } hrr i2 (by
        have : weight G N s1 = weight G N { s1 with restart := rs } + 1 := by simp [weight, hs]; omega
        omega)
      unfold packLoop
      rw [hs]
      simp only [e2, Option.bind_some]
      rw [packLoop_nil _ _ _ r2]
      exact ⟨_, rfl, r2, rfl⟩

end Verif.Graph
