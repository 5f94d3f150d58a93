import Verif.GraphDepth
/-
Properties of graph serialisation: C13, C14, C49.
-/
namespace Verif.Graph

/-! ### Specification: isomorphism of pointer graphs -/

/-- Objects reachable from pointer `rp`. -/
inductive Reach (G : Nat → List Fld) (rp : Option Nat) : Nat → Prop
  | root {a} : rp = some a → Reach G rp a
  | ptr {a b} : Reach G rp a → Fld.ptr (some b) ∈ G a → Reach G rp b
  | vec {a b ps} : Reach G rp a → Fld.vec ps ∈ G a → some b ∈ ps → Reach G rp b

/-- Renaming addresses. -/
def Fld.ren (φ : Nat → Nat) : Fld → Fld
  | .data n => .data n
  | .ptr p => .ptr (p.map φ)
  | .vec ps => .vec (ps.map (Option.map φ))

/-- The objects `heap`, with pointer `rv` to them, are a copy of the graph reachable from `rp`: a one-to-one correspondence `φ` of
the reachable objects with the objects of `heap` that carries each object, and the root, to its copy. -/
structure Copy (G : Nat → List Fld) (rp : Option Nat) (heap : List (List Fld)) (rv : Option Nat) (φ : Nat → Nat) : Prop where
  object : ∀ a, Reach G rp a → heap[φ a]? = some ((G a).map (Fld.ren φ))
  inj : ∀ a b, Reach G rp a → Reach G rp b → φ a = φ b → a = b
  surj : ∀ i, i < heap.length → ∃ a, Reach G rp a ∧ φ a = i
  root : rv = rp.map φ

theorem reach_closed {G rp N} (h : ∀ a, Reach G rp a → a < N) : Closed G N (Reach G rp) := by
  refine ⟨h, fun a ha b hb => ?_⟩
  simp only [ptrsOf, List.mem_flatMap] at hb
  obtain ⟨f, hf, hb⟩ := hb
  cases f with
  | data n => simp [Fld.ptrs] at hb
  | ptr p => simp [Fld.ptrs] at hb; subst hb; exact .ptr ha hf
  | vec ps => exact .vec ha hf hb

theorem corr_eq {M : List Nat} (hM : M.Nodup) {v p} (h : Corr M v p) : v = p.map M.idxOf := by
  match v, p, h with
  | none, none, _ => rfl
  | some k, some a, h =>
    have h : M[k]? = some a := h
    obtain ⟨hk, rfl⟩ := List.getElem?_eq_some_iff.1 h
    simp [hM.idxOf_getElem k hk]

theorem corrF_eq {M : List Nat} (hM : M.Nodup) {f g} (h : CorrF M f g) : f = g.ren M.idxOf := by
  match f, g, h with
  | .data _, .data _, h => exact congrArg Fld.data h
  | .ptr _, .ptr _, h => exact congrArg Fld.ptr (corr_eq hM h)
  | .vec vs, .vec ps, h =>
    refine congrArg Fld.vec ?_
    have : ∀ vs ps, CorrL M vs ps → vs = ps.map (Option.map M.idxOf) := by
      intro vs
      induction vs with
      | nil => intro ps h; cases ps; rfl; exact h.elim
      | cons v vs ih =>
        intro ps h
        cases ps with
        | nil => exact h.elim
        | cons p ps => rw [List.map_cons, ← ih ps h.2, ← corr_eq hM h.1]
    exact this vs ps h

theorem fieldsOK_eq {M : List Nat} (hM : M.Nodup) {i} : ∀ {j fs gs}, FieldsOK M [] i j fs gs → fs = gs.map (Fld.ren M.idxOf)
  | _, [], [], _ => rfl
  | _, [], _ :: _, h => h.elim
  | _, _ :: _, [], h => h.elim
  | _, f :: fs, g :: gs, h => by
    rcases h.1 with h1 | ⟨_, _, _, _, h⟩
    · rw [List.map_cons, ← fieldsOK_eq hM h.2, ← corrF_eq hM h1]
    · simp at h

theorem corr_mem {M : List Nat} {v a} (h : Corr M v (some a)) : a ∈ M := by
  cases v with
  | none => exact h.elim
  | some k => exact List.mem_of_getElem? h

theorem fields_mem {M : List Nat} {i} : ∀ {j fs gs}, FieldsOK M [] i j fs gs → ∀ b, some b ∈ ptrsOf gs → b ∈ M
  | _, [], [], _, b, hb => by simp [ptrsOf] at hb
  | _, [], _ :: _, h, _, _ => h.elim
  | _, _ :: _, [], h, _, _ => h.elim
  | _, f :: fs, g :: gs, h, b, hb => by
    simp only [ptrsOf, List.flatMap_cons, List.mem_append] at hb
    rcases hb with hb | hb
    · rcases h.1 with h1 | ⟨_, _, _, _, h⟩
      · match f, g, h1, hb with
        | .ptr v, .ptr p, h1, hb => simp [Fld.ptrs] at hb; subst hb; exact corr_mem h1
        | .vec vs, .vec ps, h1, hb =>
          have : ∀ vs ps, CorrL M vs ps → some b ∈ ps → b ∈ M := by
            intro vs
            induction vs with
            | nil => intro ps h hb; cases ps; simp at hb; exact h.elim
            | cons v vs ih =>
              intro ps h hb
              cases ps with
              | nil => exact h.elim
              | cons p ps =>
                simp only [List.mem_cons] at hb
                rcases hb with rfl | hb
                · exact corr_mem h.1
                · exact ih ps h.2 hb
          exact this vs ps h1 hb
      · simp at h
    · exact fields_mem h.2 b hb

theorem GOK.copy {G rp M u} (h : GOK G rp M [] u) (hM : M.Nodup) (hR : ∀ a ∈ M, Reach G rp a) : Copy G rp u.heap u.rootv M.idxOf := by
  have hroot : Corr M u.rootv rp := by rcases h.root with h | h; exact h; simp at h
  have hmem : ∀ a, Reach G rp a → a ∈ M := by
    intro a ha
    have step : ∀ a b, a ∈ M → some b ∈ ptrsOf (G a) → b ∈ M := by
      intro a b ha hb
      obtain ⟨i, hi, rfl⟩ := List.getElem_of_mem ha
      obtain ⟨fs, -, e2⟩ := h.nodes i _ (List.getElem?_eq_getElem hi)
      exact fields_mem e2 b hb
    induction ha with
    | root e => subst e; exact corr_mem hroot
    | ptr _ hf ih => exact step _ _ ih (by simp only [ptrsOf, List.mem_flatMap]; exact ⟨_, hf, by simp [Fld.ptrs]⟩)
    | vec _ hf hb ih => exact step _ _ ih (by simp only [ptrsOf, List.mem_flatMap]; exact ⟨_, hf, hb⟩)
  refine ⟨?_, ?_, ?_, corr_eq hM hroot⟩
  · intro a ha
    have hlt := List.idxOf_lt_length_of_mem (hmem a ha)
    have hg : M[M.idxOf a]? = some a := by rw [List.getElem?_eq_getElem hlt, List.getElem_idxOf]
    obtain ⟨fs, e1, e2⟩ := h.nodes _ a hg
    rw [e1, fieldsOK_eq hM e2]
  · intro a b ha hb e
    have h1 := List.getElem_idxOf (List.idxOf_lt_length_of_mem (hmem a ha))
    have h2 := List.getElem_idxOf (List.idxOf_lt_length_of_mem (hmem b hb))
    rw [← h1, ← h2]; simp only [e]
  · intro i hi
    rw [h.len] at hi
    exact ⟨M[i], hR _ (List.getElem_mem hi), hM.idxOf_getElem i hi⟩

/-- Number of pointers in the objects with addresses below `N`. -/
def pointerCount (G : Nat → List Fld) (N : Nat) : Nat := ((List.range N).map fun a => (ptrsOf (G a)).length).sum

theorem copies {G rp N} (hN : ∀ a, Reach G rp a → a < N) (sh : List Kind) (hsh : ∀ a, Reach G rp a → (G a).map Fld.kind = sh) (rmax : Nat)
    (hv : rmax = 0 ∨ ∀ a, Reach G rp a → ∀ ps, Fld.vec ps ∉ G a) (hr : rmax ≠ 1) (F k : Nat) (hF : N < F) (hk : pointerCount G N < k)
    (out : List Nat) (deep : Nat) (junk old : Option Nat) (rest : List Nat) :
    ∃ st' toks u' φ, packRoot G rmax F k 1 rp ⟨[], [], out, deep⟩ = some st' ∧ st'.out = out ++ toks ∧ st'.map = [] ∧ st'.restart = [] ∧
      unpackRoot sh junk F k .root ⟨toks ++ rest, [], [], [], old⟩ = .ok u' ∧ u'.inp = rest ∧ u'.map = [] ∧ u'.restart = [] ∧
      Copy G rp u'.heap u'.rootv φ := by
  have hw : weight G N ⟨[], [], out, deep⟩ = pointerCount G N := by
    have : ∀ L : List Nat, L.filter (fun _ => true) = L := fun L => List.filter_eq_self.2 (by simp)
    simp [weight, remw, pointerCount, this]
  obtain ⟨st', toks, M', e1, e2, e3, e4, n1, n2, -, hu⟩ := session (reach_closed hN) sh hsh junk rmax hv hr rp F hF k 1 rp ⟨[], [], out, deep⟩
    (fun a ha => .root ha) ⟨by simp, by simp, by simp⟩ (by rw [hw]; exact hk)
  obtain ⟨u', h1, h2, h3, h4, h5⟩ := hu ⟨toks ++ rest, [], [], [], old⟩ .root [] rest
    ⟨rfl, by intro id; simp; omega, rfl, rfl⟩ rfl ⟨rfl, by simp, .inr (by simp), by simp⟩
  exact ⟨st', toks, u', M'.idxOf, e1, e4, e3, e2, h1, h2, h5, h4, h3.copy n1 n2⟩

/-- C13: without a recursion limit (`recur_max = 0`) packing any finite graph ends, and unpacking builds a copy: isomorphic, each
reachable object once. The statics are empty afterwards, as they were before, so this can be repeated. Missing: with a limit, see
`C13_limit_partial`, `C13_fails_limit`. -/
theorem C13_graph_roundtrip_partial {G : Nat → List Fld} {rp : Option Nat} {N : Nat} (hN : ∀ a, Reach G rp a → a < N) (sh : List Kind)
    (hsh : ∀ a, Reach G rp a → (G a).map Fld.kind = sh) (F k : Nat) (hF : N < F) (hk : pointerCount G N < k)
    (out : List Nat) (deep : Nat) (junk old : Option Nat) (rest : List Nat) :
    ∃ st' toks u' φ, packRoot G 0 F k 1 rp ⟨[], [], out, deep⟩ = some st' ∧ st'.out = out ++ toks ∧ st'.map = [] ∧ st'.restart = [] ∧
      unpackRoot sh junk F k .root ⟨toks ++ rest, [], [], [], old⟩ = .ok u' ∧ u'.inp = rest ∧ u'.map = [] ∧ u'.restart = [] ∧
      Copy G rp u'.heap u'.rootv φ :=
  copies hN sh hsh 0 (.inl rfl) (by decide) F k hF hk out deep junk old rest

/-- C14 for node classes whose graph pointers are direct members: with any limit of at least 2 the result is a copy as well. Missing:
graph pointers in containers, for which the property is false (below). -/
theorem C14_limit_partial {G : Nat → List Fld} {rp : Option Nat} {N : Nat} (hN : ∀ a, Reach G rp a → a < N) (sh : List Kind)
    (hsh : ∀ a, Reach G rp a → (G a).map Fld.kind = sh) (hv : Kind.vec ∉ sh) (rmax : Nat) (hr : 2 ≤ rmax)
    (F k : Nat) (hF : N < F) (hk : pointerCount G N < k)
    (out : List Nat) (deep : Nat) (junk old : Option Nat) (rest : List Nat) :
    ∃ st' toks u' φ, packRoot G rmax F k 1 rp ⟨[], [], out, deep⟩ = some st' ∧ st'.out = out ++ toks ∧ st'.map = [] ∧ st'.restart = [] ∧
      unpackRoot sh junk F k .root ⟨toks ++ rest, [], [], [], old⟩ = .ok u' ∧ u'.inp = rest ∧ u'.map = [] ∧ u'.restart = [] ∧
      Copy G rp u'.heap u'.rootv φ := by
  refine copies hN sh hsh rmax (.inr ?_) (by omega) F k hF hk out deep junk old rest
  intro a ha ps hps
  apply hv
  rw [← hsh a ha, List.mem_map]
  exact ⟨_, hps, rfl⟩

/-- A cycle of two objects with sharing: 3 ↔ 5, 5 points to itself too. -/
def exG (a : Nat) : List Fld := if a = 3 then [.data 7, .ptr (some 5), .ptr none] else [.data 8, .ptr (some 3), .ptr (some 5)]

theorem exReach : ∀ a, Reach exG (some 3) a → a = 3 ∨ a = 5 := by
  intro a h
  induction h with
  | root e => simp at e; exact .inl e.symm
  | ptr _ hf ih => rcases ih with rfl | rfl <;> simp [exG] at hf <;> grind
  | vec _ hf _ ih => rcases ih with rfl | rfl <;> simp [exG] at hf

/-- Instances of C13 and C14. -/
example (rmax : Nat) (hr : 2 ≤ rmax) : ∃ st' toks u' φ, packRoot exG rmax 7 20 1 (some 3) ⟨[], [], [], 0⟩ = some st' ∧ st'.out = [] ++ toks ∧
    st'.map = [] ∧ st'.restart = [] ∧ unpackRoot [.data, .ptr, .ptr] none 7 20 .root ⟨toks ++ [42], [], [], [], none⟩ = .ok u' ∧ u'.inp = [42] ∧
    u'.map = [] ∧ u'.restart = [] ∧ Copy exG (some 3) u'.heap u'.rootv φ :=
  C14_limit_partial (N := 6) (fun a h => by rcases exReach a h with rfl | rfl <;> decide) [.data, .ptr, .ptr]
    (fun a h => by rcases exReach a h with rfl | rfl <;> rfl) (by decide) rmax hr 7 20 (by decide) (by decide) [] 0 none none [42]
example : ∃ st' toks u' φ, packRoot exG 0 7 20 1 (some 3) ⟨[], [], [], 0⟩ = some st' ∧ st'.out = [] ++ toks ∧
    st'.map = [] ∧ st'.restart = [] ∧ unpackRoot [.data, .ptr, .ptr] none 7 20 .root ⟨toks ++ [42], [], [], [], none⟩ = .ok u' ∧ u'.inp = [42] ∧
    u'.map = [] ∧ u'.restart = [] ∧ Copy exG (some 3) u'.heap u'.rootv φ :=
  C13_graph_roundtrip_partial (N := 6) (fun a h => by rcases exReach a h with rfl | rfl <;> decide) [.data, .ptr, .ptr]
    (fun a h => by rcases exReach a h with rfl | rfl <;> rfl) 7 20 (by decide) (by decide) [] 0 none none [42]
example : Reach exG (some 3) 5 := .ptr (.root rfl) (by simp [exG])

/-- C13 does not extend to an object holding two graph pointers that is not itself reached through one (e.g. the head and tail of a
list): each is a session of its own, so an object both point to is duplicated. -/
theorem C13_two_roots_fails : ∃ (G : Nat → List Fld) (p : Option Nat) (st : PSt) (u1 u2 : USt),
    packFields (packRoot G 0 5 5 1) [.ptr p, .ptr p] ⟨[], [], [], 0⟩ = some st ∧
    unpackRoot [.data] none 5 5 .root ⟨st.out, [], [], [], none⟩ = .ok u1 ∧
    unpackRoot [.data] none 5 5 .root u1 = .ok u2 ∧ u2.inp = [] ∧ u1.rootv ≠ u2.rootv := by
  refine ⟨fun _ => [.data 7], some 0, ⟨[], [], [0, 1, 7, 0, 1, 7], 1⟩, ⟨[0, 1, 7], [[.data 7]], [], [], some 0⟩,
    ⟨[], [[.data 7], [.data 7]], [], [], some 1⟩, ?_, ?_, ?_, rfl, by decide⟩ <;> decide

/-- C14 fails with containers of graph pointers: an element deferred by the limit is restarted through the address of a local
variable that no longer exists. The same graph is copied faithfully with no limit. -/
theorem C14_vector_fails : ∃ (G : Nat → List Fld) (sh : List Kind) (rp : Option Nat) (st : PSt),
    (∀ a, (G a).map Fld.kind = sh) ∧ packRoot G 2 5 5 1 rp ⟨[], [], [], 0⟩ = some st ∧
    unpackRoot sh none 5 5 .root ⟨st.out, [], [], [], none⟩ = .ub := by
  refine ⟨fun a => [.vec (if a = 0 then [some 1] else [])], [.vec], some 0, ⟨[], [], [2, 1, 1, 2, 2, 0], 2⟩, fun _ => rfl, ?_, ?_⟩ <;> decide

/-- A recursion limit of 1 never ends, for any graph and any amount of work: C14 needs a limit of at least 2. -/
theorem C14_limit_one_diverges (G : Nat → List Fld) (F : Nat) : ∀ (k nd : Nat) (p : Option Nat) (st : PSt), packRoot G 1 F k nd p st = none
  | 0, _, _, _ => rfl
  | k + 1, nd, p, st => by
    unfold packRoot
    cases F with
    | zero => simp [packPtr]
    | succ F =>
      simp only [packPtr, Nat.zero_add, if_true, Option.bind_some]
      unfold packLoop
      cases k with
      | zero => simp
      | succ k => simp [C14_limit_one_diverges G (F + 1) (k + 1) (nd + 1)]

/-- C49 within a session: from its first call to the point where the deferred pointers are restarted at most `rmax` calls are active.
Missing: the restarts, which are nested inside the call that deferred them, so the property is false (below). -/
theorem C49_session_partial (G : Nat → List Fld) (rmax : Nat) (hr : 1 ≤ rmax) (F : Nat) (p : Option Nat) (out : List Nat) (st' : PSt)
    (h : packPtr G rmax F 1 0 p ⟨[], [], out, 0⟩ = some st') : st'.deep ≤ rmax := by
  have := deep_ptr_le G rmax 0 F 1 0 p _ st' rfl (by omega) h
  simpa using this

/-- If nothing was deferred, the whole of `pack_graph` stays within the limit. -/
theorem C49_shallow_partial (G : Nat → List Fld) (rmax : Nat) (hr : 1 ≤ rmax) (F k : Nat) (p : Option Nat) (out : List Nat) (st1 : PSt)
    (h1 : packPtr G rmax F 1 0 p ⟨[], [], out ++ [rmax], 0⟩ = some st1) (hn : st1.restart = []) :
    ∃ st', packRoot G rmax F (k + 1) 1 p ⟨[], [], out, 0⟩ = some st' ∧ st'.deep ≤ rmax := by
  refine ⟨{ st1 with map := [] }, ?_, C49_session_partial G rmax hr F p _ st1 h1⟩
  unfold packRoot
  simp only [PSt.emit, h1, Option.bind_some]
  rw [packLoop_nil _ _ _ hn]
  rfl

/-- C49 fails: with limit 2 a linked list of `n + 1` objects needs more than `n` simultaneous calls. (Packing ends: C14.) -/
theorem C49_recursion_fails (n : Nat) : ∃ (G : Nat → List Fld) (rp : Option Nat) (F k : Nat) (st' : PSt),
    packRoot G 2 F k 1 rp ⟨[], [], [], 0⟩ = some st' ∧ n < st'.deep := by
  have hN : ∀ a, Reach (chain n) (some 0) a → a < n + 1 := by
    intro a h
    induction h with
    | root e => simp at e; omega
    | ptr _ hf ih => simp [chain] at hf; omega
    | vec _ hf _ ih => simp [chain] at hf
  obtain ⟨st', toks, u', φ, h, -⟩ := C14_limit_partial hN [.ptr] (fun _ _ => rfl) (by decide) 2 (by decide) (n + 2)
    (pointerCount (chain n) (n + 1) + 1) (by omega) (by omega) [] 0 none none []
  refine ⟨chain n, some 0, n + 2, pointerCount (chain n) (n + 1) + 1, st', h, ?_⟩
  have := chain_depth n _ n _ 1 0 _ st' (by omega) (by simp) h
  omega

example : packPtr exG 3 9 1 0 (some 3) ⟨[], [], [], 0⟩ = some ⟨[3, 5], [some 5, some 3], [1, 7, 2, 8, 0], 3⟩ := by decide
example : packPtr exG 9 9 1 0 (some 3) ⟨[], [], [] ++ [9], 0⟩ = some ⟨[3, 5], [], [9, 1, 7, 2, 8, 1, 2, 0], 3⟩ := by decide

end Verif.Graph
