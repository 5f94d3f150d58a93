import Verif.GraphIso
/-
Number of simultaneously active calls of pack_graph.
-/
namespace Verif.Graph

theorem deep_vec {f : Option Nat → PSt → Option PSt} {P : PSt → PSt → Prop} (hr : ∀ s, P s s) (ht : ∀ a b c, P a b → P b c → P a c)
    (hf : ∀ p s s', f p s = some s' → P s s') : ∀ ps s s', packVec f ps s = some s' → P s s'
  | [], s, s', h => by simp [packVec] at h; subst h; exact hr _
  | p :: ps, s, s', h => by
    simp only [packVec, Option.bind_eq_some_iff] at h
    obtain ⟨t, e1, e2⟩ := h
    exact ht _ _ _ (hf _ _ _ e1) (deep_vec hr ht hf ps _ _ e2)

theorem deep_fields {f : Option Nat → PSt → Option PSt} {P : PSt → PSt → Prop} (hr : ∀ s, P s s) (ht : ∀ a b c, P a b → P b c → P a c)
    (he : ∀ s n, P s (s.emit n)) (hf : ∀ p s s', f p s = some s' → P s s') : ∀ fs s s', packFields f fs s = some s' → P s s'
  | [], s, s', h => by simp [packFields] at h; subst h; exact hr _
  | .data n :: fs, s, s', h => by
    simp only [packFields] at h
    exact ht _ _ _ (he s n) (deep_fields hr ht he hf fs _ _ h)
  | .ptr p :: fs, s, s', h => by
    simp only [packFields, Option.bind_eq_some_iff] at h
    obtain ⟨t, e1, e2⟩ := h
    exact ht _ _ _ (hf _ _ _ e1) (deep_fields hr ht he hf fs _ _ e2)
  | .vec ps :: fs, s, s', h => by
    simp only [packFields, Option.bind_eq_some_iff] at h
    obtain ⟨t, e1, e2⟩ := h
    exact ht _ _ _ (ht _ _ _ (he s ps.length) (deep_vec hr ht hf ps _ _ e1)) (deep_fields hr ht he hf fs _ _ e2)

theorem deep_ptr_mono (G rmax) : ∀ fuel nd lvl p s s', packPtr G rmax fuel nd lvl p s = some s' → s.deep ≤ s'.deep ∧ nd ≤ s'.deep
  | 0, _, _, _, _, _, h => by simp [packPtr] at h
  | fuel + 1, nd, lvl, p, s, s', h => by
    unfold packPtr at h
    simp only at h
    split at h
    · simp only [Option.some.injEq] at h; subst h; simp only; omega
    · split at h
      · simp only [Option.some.injEq] at h; subst h; simp only [PSt.emit]; omega
      · split at h
        · simp only [Option.some.injEq] at h; subst h; simp only [PSt.emit]; omega
        · have := deep_fields (P := fun a b => a.deep ≤ b.deep) (fun _ => Nat.le_refl _) (fun _ _ _ => Nat.le_trans)
            (fun _ _ => Nat.le_refl _) (fun p s s' h => (deep_ptr_mono G rmax fuel (nd + 1) (lvl + 1) p s s' h).1) _ _ _ h
          simp only [PSt.emit] at this
          omega

/-- Within one session there are at most `rmax` activations. -/
theorem deep_ptr_le (G rmax base) : ∀ fuel nd lvl p s s', nd = base + lvl + 1 → lvl + 1 ≤ rmax → packPtr G rmax fuel nd lvl p s = some s' →
    s'.deep ≤ max s.deep (base + rmax)
  | 0, _, _, _, _, _, _, _, h => by simp [packPtr] at h
  | fuel + 1, nd, lvl, p, s, s', hn, hl, h => by
    unfold packPtr at h
    simp only at h
    split at h
    · simp only [Option.some.injEq] at h; subst h; simp only; omega
    · rename_i hne
      split at h
      · simp only [Option.some.injEq] at h; subst h; simp only [PSt.emit]; omega
      · split at h
        · simp only [Option.some.injEq] at h; subst h; simp only [PSt.emit]; omega
        · have := deep_fields (P := fun a b => b.deep ≤ max a.deep (base + rmax)) (fun _ => by omega) (fun _ _ _ h1 h2 => by omega)
            (fun _ _ => by simp only [PSt.emit]; omega)
            (fun p s s' h => deep_ptr_le G rmax base fuel (nd + 1) (lvl + 1) p s s' (by omega) (by omega) h) _ _ _ h
          simp only [PSt.emit] at this
          omega

theorem deep_loop_mono {f : Option Nat → PSt → Option PSt} (hf : ∀ p s s', f p s = some s' → s.deep ≤ s'.deep) :
    ∀ k s s', packLoop f k s = some s' → s.deep ≤ s'.deep
  | k, s, s', h => by
    unfold packLoop at h
    split at h
    · simp at h; subst h; exact Nat.le_refl _
    · cases k with
      | zero => simp at h
      | succ k =>
        simp only [Option.bind_eq_some_iff] at h
        obtain ⟨t, e1, e2⟩ := h
        have h1 := hf _ _ _ e1
        have h2 := deep_loop_mono hf k _ _ e2
        simp only at h1
        omega

theorem deep_root_mono (G rmax F) : ∀ k nd p s s', packRoot G rmax F k nd p s = some s' → s.deep ≤ s'.deep ∧ nd ≤ s'.deep
  | 0, _, _, _, _, h => by simp [packRoot] at h
  | k + 1, nd, p, s, s', h => by
    simp only [packRoot, Option.bind_eq_some_iff] at h
    obtain ⟨t, e1, t2, e2, e3⟩ := h
    simp only [Option.some.injEq] at e3
    subst e3
    have h1 := deep_ptr_mono _ _ _ _ _ _ _ _ e1
    have h2 := deep_loop_mono (fun p s s' h => (deep_root_mono G rmax F k (nd + 1) p s s' h).1) _ _ _ e2
    simp only [PSt.emit] at h1 ⊢
    omega

/-- A linked list of `n + 1` objects. -/
def chain (n : Nat) (a : Nat) : List Fld := [.ptr (if a < n then some (a + 1) else none)]

theorem chain_depth (n F : Nat) : ∀ m k nd a s s', a + m = n → (∀ x ∈ s.map, x < a) → packRoot (chain n) 2 F k nd (some a) s = some s' →
    nd + m ≤ s'.deep
  | m, 0, _, _, _, _, _, _, h => by simp [packRoot] at h
  | 0, k + 1, nd, a, s, s', _, _, h => by have := deep_root_mono _ _ _ _ _ _ _ _ h; omega
  | m + 1, k + 1, nd, a, s, s', ha, hm, h => by
    simp only [packRoot, Option.bind_eq_some_iff] at h
    obtain ⟨t, e1, t2, e2, e3⟩ := h
    simp only [Option.some.injEq] at e3
    subst e3
    cases F with
    | zero => simp [packPtr] at e1
    | succ F =>
      have hna : s.map.idxOf? a = none := by
        simp only [List.idxOf?_eq_none_iff]
        intro x; have := hm _ x; omega
      unfold packPtr at e1
      simp only [PSt.emit, hna, show ¬ (0 + 1 = 2) by omega, if_false, chain, packFields, show a < n by omega, if_true] at e1
      cases F with
      | zero => simp [packPtr] at e1
      | succ F =>
        unfold packPtr at e1
        simp only [show (0 + 1 + 1 = 2) by omega, if_true, Option.bind_some, Option.some.injEq] at e1
        subst e1
        unfold packLoop at e2
        simp only at e2
        cases k with
        | zero => simp at e2
        | succ k =>
          simp only [Option.bind_eq_some_iff] at e2
          obtain ⟨t3, e4, e5⟩ := e2
          have h1 := chain_depth n (F + 1 + 1) m (k + 1) (nd + 1) (a + 1) _ _ (by omega) (by
            intro x hx; simp at hx; rcases hx with hx | rfl
            · have := hm x hx; omega
            · omega) e4
          have h2 := deep_loop_mono (fun p s s' h => (deep_root_mono _ 2 _ _ _ p s s' h).1) _ _ _ e5
          simp only at h2 ⊢
          omega

end Verif.Graph
