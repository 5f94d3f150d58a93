import Verif.Props.Xsd
/-
C68: what the schema says about the members of a class.
-/
namespace Verif.Xsd
open Verif.OMap

/-- The schema type of a member: pointers are described as what they point to. -/
def schemaType : Ty → Ref
  | .fund x => .xs x
  | .str => .xs [115, 116, 114, 105, 110, 103]
  | .enum m _ => .tns m
  | .cls m => .tns m
  | .cont m _ => .tns m
  | .pair m _ _ => .tns m
  | .arr m _ => .tns m
  | .ptr _ e => schemaType e

/-- The definition expected of a class with the given base and members. -/
def describe (n : Name) (base : Option Name) (ms : List (Name × Ty)) : List Tok :=
  [.opn .complexType (some (.tns n))] ++
  (match base with | none => [] | some b => [.opn .complexContent none, .opn .extension (some (.tns b))]) ++
  (if ms = [] then [] else [.opn .sequence none]) ++
  ms.map (fun m => .element m.1 (schemaType m.2)) ++
  (if base = none then [.any] else []) ++
  (if ms = [] then [] else [.cls .sequence]) ++
  (match base with | none => [] | some _ => [.cls .extension, .cls .complexContent]) ++
  [.cls .complexType]

/-- No enum, container, pair or array that is described along with an object of the type has the name. -/
def Clean (n : Name) : Ty → Prop
  | .enum m _ => m ≠ n
  | .cont m e => m ≠ n ∧ Clean n e
  | .pair m a b => m ≠ n ∧ Clean n a ∧ Clean n b
  | .arr m _ => m ≠ n
  | .ptr _ e => Clean n e
  | _ => True

private def D (n : Name) (g : G) : Option (List Tok) := mfind strLt n g.defs

private def Sim : List Top → List Top → Prop
  | [], [] => True
  | a :: r, b :: r' => r = r' ∧ a.name = b.name ∧ a.complete = b.complete
  | _, _ => False

private theorem Sim.rfl' : ∀ {l : List Top}, Sim l l
  | [] => trivial
  | _ :: _ => ⟨rfl, rfl, rfl⟩

private theorem Sim.trans : ∀ {a b c : List Top}, Sim a b → Sim b c → Sim a c
  | [], [], [], _, _ => trivial
  | _ :: _, _ :: _, _ :: _, h, k => ⟨h.1.trans k.1, h.2.1.trans k.2.1, h.2.2.trans k.2.2⟩
  | [], [], _ :: _, _, k => k.elim
  | [], _ :: _, _, h, _ => h.elim
  | _ :: _, [], _, h, _ => h.elim
  | _ :: _, _ :: _, [], _, k => k.elim

private theorem Sim.cons {a : Top} {r s : List Top} (h : Sim (a :: r) s) : ∃ b, s = b :: r ∧ a.name = b.name ∧ a.complete = b.complete := by
  cases s with
  | nil => exact h.elim
  | cons b s => obtain ⟨rfl, h1, h2⟩ := h; exact ⟨b, rfl, h1, h2⟩

/-- The definition of `n` is not the one being added to. -/
private def TopNot (n : Name) : List Top → Prop
  | [] => True
  | t :: _ => t.complete = false → t.name ≠ n

private theorem TopNot.sim {n : Name} : ∀ {l l' : List Top}, TopNot n l → Sim l l' → TopNot n l'
  | [], [], _, _ => trivial
  | _ :: _, _ :: _, h, k => fun e => k.2.1 ▸ h (k.2.2.trans e)
  | [], _ :: _, _, h => h.elim
  | _ :: _, [], _, h => h.elim

section
variable (n : Name)

private theorem append_D (g : G) (m : Name) (t : List Tok) :
    D n (g.append m t) = if n = m then some ((D n g).getD [] ++ t) else D n g := by
  simp only [D, G.append, mfind_mput strOrd]
  by_cases e : n = m
  · subst e; simp
  · simp [e]

private theorem dep_eq (g : G) (m : Name) (r : Ref) : (addDependency g m r).defs = g.defs ∧ (addDependency g m r).stack = g.stack := by
  cases r <;> exact ⟨rfl, rfl⟩

private theorem member_nil (g : G) (r : Ref) : addMember g [] r = g := by
  unfold addMember
  split <;> simp

private theorem member_frame {g : G} (ht : TopNot n g.stack) (name : Name) (r : Ref) :
    Sim g.stack (addMember g name r).stack ∧ D n (addMember g name r) = D n g := by
  unfold addMember
  split
  · exact ⟨Sim.rfl', rfl⟩
  · rename_i top rest e
    split
    · rename_i hc
      have hne : n ≠ top.name := fun e' => by rw [e] at ht; exact ht hc.2 e'.symm
      generalize hg1 : (if top.seq then g else g.append top.name [.opn .sequence none]) = g1
      have h1 : D n g1 = D n g := by
        subst hg1
        split
        · rfl
        · rw [append_D]; simp [hne]
      refine ⟨?_, ?_⟩
      · rw [(dep_eq _ _ _).2, e]
        exact ⟨rfl, rfl, rfl⟩
      · unfold D
        rw [(dep_eq _ _ _).1]
        have := append_D n { g1 with stack := { top with seq := true } :: rest } top.name [.element name r]
        simp only [hne, if_false] at this
        exact this.trans h1
    · exact ⟨Sim.rfl', rfl⟩

private theorem member_exact {g : G} (s : Bool) (desc : Name) (b : Option Ref) (rest : List Top)
    (ht : g.stack = ⟨false, s, n, desc, b⟩ :: rest) (x : List Tok) (hx : D n g = some x) (name : Name) (hn : name ≠ []) (r : Ref) :
    (addMember g name r).stack = ⟨false, true, n, desc, b⟩ :: rest ∧
    D n (addMember g name r) = some (x ++ (if s then [] else [.opn .sequence none]) ++ [.element name r]) := by
  unfold addMember
  simp only [ht, hn, ne_eq, not_false_eq_true, and_self, if_true]
  generalize hg1 : (if s then g else g.append n [.opn .sequence none]) = g1
  have h1 : D n g1 = some (x ++ (if s then [] else [.opn .sequence none])) := by
    subst hg1
    cases s
    · simp [append_D, hx]
    · simpa using hx
  refine ⟨?_, ?_⟩
  · rw [(dep_eq _ _ _).2]; rfl
  · unfold D
    rw [(dep_eq _ _ _).1]
    have := append_D n { g1 with stack := ⟨false, true, n, desc, b⟩ :: rest } n [.element name r]
    simp only [if_true] at this
    refine this.trans ?_
    have e : D n { g1 with stack := ⟨false, true, n, desc, b⟩ :: rest } = D n g1 := rfl
    rw [e, h1]
    simp

private theorem open_other (g : G) (m d : Name) (hm : m ≠ n ∨ D n g ≠ none) :
    (∃ t, (openType g m d).stack = t :: g.stack ∧ TopNot n (t :: g.stack)) ∧ D n (openType g m d) = D n g := by
  unfold openType
  by_cases hd : g.defined m = true
  · rw [if_pos hd]
    exact ⟨⟨_, rfl, fun e => by simp at e⟩, rfl⟩
  · rw [if_neg hd]
    have hmn : m ≠ n := by
      rcases hm with hm | hm
      · exact hm
      · rintro rfl
        apply hd
        unfold G.defined
        cases hf : mfind strLt m g.defs with
        | none => exact absurd hf hm
        | some _ => rfl
    refine ⟨⟨_, rfl, fun _ => hmn⟩, ?_⟩
    simp [D, mfind_mput strOrd, Ne.symm hmn]

private theorem open_new {g : G} (d : Name) (hn : D n g = none) :
    (openType g n d).stack = ⟨false, false, n, d, none⟩ :: g.stack ∧
    D n (openType g n d) = some [.opn .complexType (some (.tns n))] := by
  unfold openType
  have : g.defined n = false := by unfold G.defined; unfold D at hn; rw [hn]; rfl
  rw [if_neg (by simp [this])]
  exact ⟨rfl, by simp [D, mfind_mput strOrd]⟩

private theorem close_other {g : G} (t : Top) (rest : List Top) (hs : g.stack = t :: rest) (ht : TopNot n g.stack) :
    (closeType g).stack = rest ∧ D n (closeType g) = D n g := by
  unfold closeType
  simp only [hs]
  rw [hs] at ht
  cases hc : t.complete with
  | true => simp [D]
  | false =>
    simp only [Bool.false_eq_true, if_false]
    refine ⟨trivial, ?_⟩
    have := append_D n g t.name ((if t.base.isNone then [Tok.any] else []) ++
        (if t.seq then [Tok.cls .sequence] else []) ++
        (if t.base.isSome then [Tok.cls .extension, .cls .complexContent] else []) ++ [.cls .complexType])
    rw [if_neg (Ne.symm (ht hc))] at this
    exact this

private theorem close_this {g : G} (s : Bool) (d : Name) (b : Option Ref) (rest : List Top)
    (hs : g.stack = ⟨false, s, n, d, b⟩ :: rest) (x : List Tok) (hx : D n g = some x) :
    (closeType g).stack = rest ∧ D n (closeType g) = some (x ++ ((if b.isNone then [Tok.any] else []) ++
        (if s then [Tok.cls .sequence] else []) ++
        (if b.isSome then [Tok.cls .extension, .cls .complexContent] else []) ++ [.cls .complexType])) := by
  unfold closeType
  simp only [hs, Bool.false_eq_true, if_false]
  refine ⟨trivial, ?_⟩
  have := append_D n g n ((if b.isNone then [Tok.any] else []) ++
        (if s then [Tok.cls .sequence] else []) ++
        (if b.isSome then [Tok.cls .extension, .cls .complexContent] else []) ++ [.cls .complexType])
  rw [if_pos rfl, hx] at this
  exact this

private theorem define_other (g : G) (m : Name) (hm : m ≠ n) (d : List Tok) :
    (defineType g m d).stack = g.stack ∧ D n (defineType g m d) = D n g := by
  unfold defineType
  split
  · exact ⟨rfl, rfl⟩
  · exact ⟨rfl, by simp [D, mfind_mput strOrd, Ne.symm hm]⟩

private theorem base_other {g g' : G} (ht : TopNot n g.stack) (r : Ref) (he : addBase g r = .ok g') :
    Sim g.stack g'.stack ∧ D n g' = D n g := by
  unfold addBase at he
  split at he
  · cases he; exact ⟨Sim.rfl', rfl⟩
  · rename_i top rest e
    split at he
    · cases he; exact ⟨Sim.rfl', rfl⟩
    · rename_i hc
      have hne : n ≠ top.name := fun e' => by rw [e] at ht; exact ht (by simpa using hc) e'.symm
      split at he
      · cases he
        refine ⟨by rw [e]; exact ⟨rfl, rfl, rfl⟩, ?_⟩
        have := append_D n g top.name [.opn .complexContent none, .opn .extension (some r)]
        rw [if_neg hne] at this
        exact this
      · split at he
        · cases he; exact ⟨Sim.rfl', rfl⟩
        · cases he

end

/-- What a call leaves of a definition of `n` it does not add to. -/
private def Leaves (n : Name) (base : Option Name) (ms : List (Name × Ty)) (g g' : G) : Prop :=
  Sim g.stack g'.stack ∧ (∀ x, D n g = some x → D n g' = some x) ∧
    (D n g = none → D n g' = none ∨ D n g' = some (describe n base ms))

section
variable {n : Name} {base : Option Name} {ms : List (Name × Ty)}

private theorem Leaves.trans {a b c : G} (h : Leaves n base ms a b) (k : Leaves n base ms b c) : Leaves n base ms a c := by
  refine ⟨h.1.trans k.1, fun x hx => k.2.1 x (h.2.1 x hx), fun hx => ?_⟩
  rcases h.2.2 hx with h' | h'
  · exact k.2.2 h'
  · exact .inr (k.2.1 _ h')

private theorem Leaves.of_eq {g g' : G} (h : Sim g.stack g'.stack ∧ D n g' = D n g) : Leaves n base ms g g' :=
  ⟨h.1, fun _ hx => h.2.trans hx, fun hx => .inl (h.2.trans hx)⟩

private theorem Leaves.of_eq' {g g' : G} (h : g'.stack = g.stack ∧ D n g' = D n g) : Leaves n base ms g g' :=
  .of_eq ⟨by rw [h.1]; exact Sim.rfl', h.2⟩

private theorem Leaves.refl {g : G} : Leaves n base ms g g := .of_eq ⟨Sim.rfl', rfl⟩

private theorem Leaves.dep {g : G} (m : Name) (r : Ref) : Leaves n base ms g (addDependency g m r) :=
  .of_eq' ⟨(dep_eq _ _ _).2, by unfold D; rw [(dep_eq _ _ _).1]⟩

private theorem each_leaves {α : Type} {f : G → α → R G} {l : List α}
    (hf : ∀ a ∈ l, ∀ g g', TopNot n g.stack → f g a = .ok g' → Leaves n base ms g g') :
    ∀ g g', TopNot n g.stack → each f g l = .ok g' → Leaves n base ms g g' := by
  induction l with
  | nil => intro g g' _ e; simp [each] at e; subst e; exact .refl
  | cons a l ih =>
    intro g g' ht e
    simp only [each] at e
    cases h1 : f g a with
    | ok g1 =>
      rw [h1] at e
      have k := hf a (by simp) g g1 ht h1
      exact k.trans (ih (fun b hb => hf b (by simp [hb])) g1 g' (ht.sim k.1) e)
    | throw => rw [h1] at e; cases e
    | deep => rw [h1] at e; cases e

/-- A nested definition: opened, filled and closed. -/
private theorem bracket {g g1 g2 : G} {m d : Name} (hm : m ≠ n ∨ D n g ≠ none) (e1 : openType g m d = g1)
    (k : TopNot n g1.stack → Leaves n base ms g1 g2) :
    (closeType g2).stack = g.stack ∧ Leaves n base ms g (closeType g2) := by
  obtain ⟨⟨t, ht1, ht2⟩, h3⟩ := open_other n g m d hm
  rw [e1] at ht1 h3
  have ht : TopNot n g1.stack := ht1 ▸ ht2
  have k' := k ht
  have hs := k'.1
  rw [ht1] at hs
  obtain ⟨t', ht', _⟩ := Sim.cons hs
  have c := close_other n t' g.stack ht' (ht.sim k'.1)
  refine ⟨c.1, by rw [c.1]; exact Sim.rfl', fun x hx => ?_, fun hx => ?_⟩
  · rw [c.2]; exact k'.2.1 x (h3.trans hx)
  · rw [c.2]; exact k'.2.2 (h3.trans hx)

end

/-- The class is declared so. -/
def Declares (env : Env) (n : Name) (base : Option Name) (ms : List (Name × Ty)) : Prop :=
  (env n = match base with
    | none => ms.map fun m => ⟨false, m.1, m.2⟩
    | some b => ⟨true, [], .cls b⟩ :: ms.map fun m => ⟨false, m.1, m.2⟩) ∧
  ∀ m ∈ ms, m.1 ≠ [] ∧ Json.dot ∉ m.1

section
variable {env : Env} {n : Name} {base : Option Name} {ms : List (Name × Ty)}

private theorem bind_ok {α β : Type} {x : R α} {f : α → R β} {b : β} (h : x.bind f = .ok b) : ∃ a, x = .ok a ∧ f a = .ok b := by
  cases x with
  | ok a => exact ⟨a, rfl, h⟩
  | throw => cases h
  | deep => cases h

private theorem tail_member (d nm : Name) (h : Json.dot ∉ nm) : Json.tail (sub d nm) = nm := by
  unfold Json.tail sub
  simp only [List.reverse_append, List.reverse_cons, List.append_assoc]
  have : ∀ (l r : Name), Json.dot ∉ l → (l ++ ([Json.dot] ++ r)).takeWhile (· != Json.dot) = l := by
    intro l
    induction l with
    | nil => intro r _; simp
    | cons a l ih =>
      intro r h
      simp at h
      have : a ≠ Json.dot := fun e => h.1 e.symm
      simpa [this] using ih r h.2
  rw [this _ _ (by simpa using h)]
  simp

/-- Statement A: a call that does not add to the definition of `n`. -/
private def A (env : Env) (n : Name) (base : Option Name) (ms : List (Name × Ty)) (fuel : Nat) : Prop :=
  ∀ g d ty g', TopNot n g.stack → Clean n ty → gen env fuel g d ty = .ok g' → Leaves n base ms g g'

/-- Statement B: a member of `n`. -/
private def B (env : Env) (n : Name) (fuel : Nat) : Prop :=
  ∀ g (s : Bool) desc b rest x nm ty g', g.stack = ⟨false, s, n, desc, b⟩ :: rest → D n g = some x → nm ≠ [] → Json.dot ∉ nm →
    Clean n ty → gen env fuel g (sub desc nm) ty = .ok g' →
    g'.stack = ⟨false, true, n, desc, b⟩ :: rest ∧
      D n g' = some (x ++ (if s then [] else [.opn .sequence none]) ++ [.element nm (schemaType ty)])

/-- The base class of `n`. -/
private def B0 (env : Env) (n : Name) (fuel : Nat) : Prop :=
  ∀ g desc rest x b g', g.stack = ⟨false, false, n, desc, none⟩ :: rest → D n g = some x → gen env fuel g desc (.cls b) = .ok g' →
    g'.stack = ⟨false, false, n, desc, some (.tns b)⟩ :: rest ∧
      D n g' = some (x ++ [.opn .complexContent none, .opn .extension (some (.tns b))])

/-- Statement C: the element type of a container that is a member of `n`. -/
private def C (env : Env) (n : Name) (fuel : Nat) : Prop :=
  ∀ g x ty g', D n g = some x → (∀ m, ty ≠ .cls m) → (∀ m e, ty ≠ .ptr m e) →
    Clean n ty → gen env fuel g [] ty = .ok g' → g'.stack = g.stack ∧ D n g' = some x

private theorem sub_differs (d nm : Name) : d ≠ sub d nm := by
  intro e
  have := congrArg List.length e
  simp [sub] at this

private theorem members_run (fuel : Nat) (hB : B env n fuel) (desc : Name) (b : Option Ref) (rest : List Top) :
    ∀ (l : List (Name × Ty)) (s : Bool) (x : List Tok) (g g' : G), (∀ m ∈ l, m.1 ≠ [] ∧ Json.dot ∉ m.1) → (∀ m ∈ l, Clean n m.2) →
      g.stack = ⟨false, s, n, desc, b⟩ :: rest → D n g = some x →
      items (gen env fuel) g desc (l.map fun m => ⟨false, m.1, m.2⟩) = .ok g' →
      g'.stack = ⟨false, s || !l.isEmpty, n, desc, b⟩ :: rest ∧
        D n g' = some (x ++ (if l = [] ∨ s then [] else [.opn .sequence none]) ++ l.map fun m => .element m.1 (schemaType m.2)) := by
  intro l
  induction l with
  | nil =>
    intro s x g g' _ _ hs hx e
    simp [items, each] at e
    subst e
    exact ⟨by simpa using hs, by simpa using hx⟩
  | cons m l ih =>
    intro s x g g' hl hc hs hx e
    simp only [items, List.map_cons, each] at e
    obtain ⟨g1, e1, e2⟩ := bind_ok e
    obtain ⟨h2, h3⟩ := hB g s desc b rest x m.1 m.2 g1 hs hx (hl m (by simp)).1 (hl m (by simp)).2 (hc m (by simp)) (by simpa using e1)
    obtain ⟨k2, k3⟩ := ih true _ g1 g' (fun m hm => hl m (by simp [hm])) (fun m hm => hc m (by simp [hm])) h2 h3 e2
    refine ⟨by simpa using k2, ?_⟩
    rw [k3]
    cases s <;> simp

/-- The body of a class: opened, members described, closed. -/
private theorem body (hdecl : Declares env n base ms) (henv : ∀ m, ∀ i ∈ env m, Clean n i.type) (fuel : Nat)
    (hA : A env n base ms fuel) (hB : B env n fuel) (hB0 : B0 env n fuel) (m d : Name) (g g' : G)
    (e : ((items (gen env fuel) (openType g m d) d (env m)).bind fun g => .ok (closeType g)) = .ok g') :
    g'.stack = g.stack ∧ Leaves n base ms g g' ∧ (m = n → D n g' ≠ none) := by
  have hms : ∀ m ∈ ms, Clean n m.2 := by
    intro m hm
    have : (⟨false, m.1, m.2⟩ : Item) ∈ env n := by
      rw [hdecl.1]
      cases base with
      | none => exact List.mem_map.2 ⟨m, hm, rfl⟩
      | some b => exact List.mem_cons.2 (.inr (List.mem_map.2 ⟨m, hm, rfl⟩))
    exact henv n _ this
  obtain ⟨g2, e2, e3⟩ := bind_ok e
  cases e3
  by_cases hm : m ≠ n ∨ D n g ≠ none
  · obtain ⟨h1, h2⟩ := bracket (base := base) (ms := ms) (g2 := g2) hm rfl
      (fun ht => each_leaves (fun i hi g g' ht e => hA g _ i.type g' ht (henv m i hi) e) _ _ ht e2)
    refine ⟨h1, h2, fun e => ?_⟩
    subst e
    simp at hm
    cases hx : D m g with
    | none => exact absurd hx hm
    | some x => rw [h2.2.1 x hx]; simp
  · have hmn : m = n := Classical.byContradiction fun h => hm (.inl h)
    have hno : D n g = none := Classical.byContradiction fun h => hm (.inr h)
    subst hmn
    obtain ⟨o1, o2⟩ := open_new m d hno
    have key : (closeType g2).stack = g.stack ∧ D m (closeType g2) = some (describe m base ms) := by
      rw [hdecl.1] at e2
      cases base with
      | none =>
        obtain ⟨k1, k2⟩ := members_run fuel hB d none g.stack ms false _ _ g2 hdecl.2 hms o1 o2 e2
        obtain ⟨c1, c2⟩ := close_this m _ d none g.stack k1 _ k2
        refine ⟨c1, c2.trans ?_⟩
        by_cases hl : ms = [] <;> simp [describe, hl]
      | some b =>
        simp only [items, each] at e2
        obtain ⟨g1, e1, e2⟩ := bind_ok e2
        obtain ⟨b1, b2⟩ := hB0 _ d g.stack _ b g1 o1 o2 (by simpa using e1)
        obtain ⟨k1, k2⟩ := members_run fuel hB d (some (.tns b)) g.stack ms false _ _ g2 hdecl.2 hms b1 b2 e2
        obtain ⟨c1, c2⟩ := close_this m _ d (some (.tns b)) g.stack k1 _ k2
        refine ⟨c1, c2.trans ?_⟩
        by_cases hl : ms = [] <;> simp [describe, hl]
    refine ⟨key.1, ⟨by rw [key.1]; exact Sim.rfl', fun x hx => ?_, fun _ => .inr key.2⟩, fun _ => by rw [key.2]; simp⟩
    rw [hno] at hx; cases hx

private theorem main (hdecl : Declares env n base ms) (henv : ∀ m, ∀ i ∈ env m, Clean n i.type) : ∀ fuel,
    A env n base ms fuel ∧ B env n fuel ∧ B0 env n fuel ∧ C env n fuel := by
  intro fuel
  induction fuel with
  | zero => exact ⟨nofun, nofun, nofun, nofun⟩
  | succ fuel ih =>
    obtain ⟨hA, hB, hB0, hC⟩ := ih
    have hbody := body hdecl henv fuel hA hB hB0
    -- a class body while the definition of n is there
    have keepBody : ∀ (m d : Name) (g g' : G) (x : List Tok), D n g = some x →
        ((items (gen env fuel) (openType g m d) d (env m)).bind fun g => .ok (closeType g)) = .ok g' →
        g'.stack = g.stack ∧ D n g' = some x := by
      intro m d g g' x hx e
      obtain ⟨h1, h2, _⟩ := hbody m d g g' e
      exact ⟨h1, h2.2.1 x hx⟩
    have extraL : ∀ (g : G) (d : Name) (e : Ty) (g' : G), TopNot n g.stack → Clean n e →
        extra (gen env fuel) env g d e = .ok g' → Leaves n base ms g g' := by
      intro g d e g' ht hc h
      cases e with
      | str => simp [extra] at h; subst h; exact .refl
      | cls m => exact (hbody m d g g' h).2.1
      | ptr m e => simp [extra] at h
      | _ => exact hA g [] _ g' ht hc h
    have extraC : ∀ (g : G) (d : Name) (e : Ty) (g' : G) (x : List Tok), D n g = some x → Clean n e →
        extra (gen env fuel) env g d e = .ok g' → g'.stack = g.stack ∧ D n g' = some x := by
      intro g d e g' x hx hc h
      cases e with
      | str => simp [extra] at h; subst h; exact ⟨rfl, hx⟩
      | cls m => exact keepBody m d g g' x hx h
      | ptr m e => simp [extra] at h
      | _ => exact hC g x _ g' hx (by simp) (by simp) hc h
    -- a pair
    have pairC : ∀ (g : G) (m d : Name) (a b : Ty) (g' : G), m ≠ n → Clean n a → Clean n b →
        ((gen env fuel (openType g m d) (sub d [102, 105, 114, 115, 116]) a).bind fun g =>
          (gen env fuel g (sub d [115, 101, 99, 111, 110, 100]) b).bind fun g => .ok (closeType g)) = .ok g' →
        g'.stack = g.stack ∧ Leaves n base ms g g' := by
      intro g m d a b g' hm ha hb e
      obtain ⟨g1, e1, e⟩ := bind_ok e
      obtain ⟨g2, e2, e⟩ := bind_ok e
      cases e
      refine bracket (d := d) (.inl hm) rfl (fun ht => ?_)
      have k1 := hA _ _ a g1 ht ha e1
      exact k1.trans (hA _ _ b g2 (ht.sim k1.1) hb e2)
    have pairEq : ∀ (g : G) (m d : Name) (a b : Ty) (g' : G), gen env (fuel + 1) g d (.pair m a b) = .ok g' →
        ∃ g1, ((gen env fuel (openType g m d) (sub d [102, 105, 114, 115, 116]) a).bind fun g =>
          (gen env fuel g (sub d [115, 101, 99, 111, 110, 100]) b).bind fun g => .ok (closeType g)) = .ok g1 ∧
          g' = addMember g1 (Json.tail d) (.tns m) := by
      intro g m d a b g' e
      simp only [gen] at e
      obtain ⟨g1, e1, e⟩ := bind_ok e
      obtain ⟨g2, e2, e⟩ := bind_ok e
      cases e
      exact ⟨closeType g2, by simp [e1, e2, R.bind], rfl⟩
    refine ⟨?_, ?_, ?_, ?_⟩
    · intro g d ty g' ht hc e
      cases ty with
      | fund x => simp only [gen] at e; cases e; exact .of_eq (member_frame n ht _ _)
      | str => simp only [gen] at e; cases e; exact .of_eq (member_frame n ht _ _)
      | enum m k =>
        simp only [gen] at e; cases e
        have h1 := define_other n g m hc (enumDef m k)
        exact (Leaves.of_eq' h1).trans (.of_eq (member_frame n (by rw [h1.1]; exact ht) _ _))
      | cls m =>
        simp only [gen] at e
        generalize hg0 : (if d ≠ [] ∧ d.contains Json.dot = false then { g with root := (d, .tns m) } else g) = g0 at e
        have h0 : g0.stack = g.stack ∧ D n g0 = D n g := by
          subst hg0; split <;> exact ⟨rfl, rfl⟩
        obtain ⟨g1, e1, e⟩ := bind_ok e
        have ht0 : TopNot n g0.stack := by rw [h0.1]; exact ht
        have k1 : Leaves n base ms g0 g1 := by
          split at e1
          · exact .of_eq (base_other n ht0 _ e1)
          · cases e1; exact .of_eq (member_frame n ht0 _ _)
        exact (Leaves.of_eq' h0).trans (k1.trans (hbody m d g1 g' e).2.1)
      | cont m el =>
        simp only [gen] at e
        have k1 : Leaves n base ms g (addMember g (Json.tail d) (.tns m)) := .of_eq (member_frame n ht _ _)
        have k2 : Leaves n base ms _ (defineType (addMember g (Json.tail d) (.tns m)) m (contDef m el)) :=
          .of_eq' (define_other n (addMember g (Json.tail d) (.tns m)) m hc.1 (contDef m el))
        have k3 := (k1.trans k2).trans (Leaves.dep m el.ref)
        exact k3.trans (extraL _ _ el g' (ht.sim k3.1) hc.2 e)
      | pair m a b =>
        obtain ⟨g1, e1, rfl⟩ := pairEq g m d a b g' e
        obtain ⟨h1, h2⟩ := pairC g m d a b g1 hc.1 hc.2.1 hc.2.2 e1
        exact h2.trans (.of_eq (member_frame n (by rw [h1]; exact ht) _ _))
      | ptr m el => simp only [gen] at e; exact hA g d el g' ht hc e
      | arr m el =>
        simp only [gen] at e; cases e
        have h1 := define_other n g m hc (contDef m el)
        exact ((Leaves.of_eq' h1).trans (.of_eq (member_frame n (by rw [h1.1]; exact ht) _ _))).trans (Leaves.dep _ _)
    · intro g s desc b rest x nm ty g' hs hx hnm hdot hc e
      have mem : ∀ (g : G), g.stack = ⟨false, s, n, desc, b⟩ :: rest → D n g = some x → ∀ r,
          (addMember g (Json.tail (sub desc nm)) r).stack = ⟨false, true, n, desc, b⟩ :: rest ∧
          D n (addMember g (Json.tail (sub desc nm)) r) = some (x ++ (if s then [] else [.opn .sequence none]) ++ [.element nm r]) := by
        intro g hs hx r
        rw [tail_member desc nm hdot]
        exact member_exact n s desc b rest hs x hx nm hnm r
      cases ty with
      | fund y => simp only [gen] at e; cases e; exact mem g hs hx _
      | str => simp only [gen] at e; cases e; exact mem g hs hx _
      | enum m k =>
        simp only [gen] at e; cases e
        have h1 := define_other n g m hc (enumDef m k)
        exact mem _ (h1.1.trans hs) (h1.2.trans hx) _
      | cls m =>
        simp only [gen] at e
        generalize hg0 : (if sub desc nm ≠ [] ∧ (sub desc nm).contains Json.dot = false then
          { g with root := (sub desc nm, .tns m) } else g) = g0 at e
        have h0 : g0.stack = g.stack ∧ D n g0 = D n g := by
          subst hg0; split <;> exact ⟨rfl, rfl⟩
        have hd : g0.desc ≠ sub desc nm := by
          unfold G.desc
          rw [h0.1, hs]
          exact sub_differs _ _
        rw [if_neg hd] at e
        obtain ⟨h1, h2⟩ := mem g0 (h0.1.trans hs) (h0.2.trans hx) (.tns m)
        obtain ⟨h3, h4⟩ := keepBody m _ _ g' _ h2 e
        exact ⟨h3.trans h1, h4⟩
      | cont m el =>
        simp only [gen] at e
        obtain ⟨h1, h2⟩ := mem g hs hx (.tns m)
        have h3 := define_other n (addMember g (Json.tail (sub desc nm)) (.tns m)) m hc.1 (contDef m el)
        have hx' : D n (addDependency (defineType (addMember g (Json.tail (sub desc nm)) (.tns m)) m (contDef m el)) m el.ref) =
            some (x ++ (if s then [] else [.opn .sequence none]) ++ [.element nm (.tns m)]) := by
          unfold D; rw [(dep_eq _ _ _).1]; exact h3.2.trans h2
        obtain ⟨h4, h5⟩ := extraC _ _ el g' _ hx' hc.2 e
        exact ⟨h4.trans ((dep_eq _ _ _).2.trans (h3.1.trans h1)), h5⟩
      | pair m a c =>
        obtain ⟨g1, e1, rfl⟩ := pairEq g m _ a c g' e
        obtain ⟨h1, h2⟩ := pairC g m _ a c g1 hc.1 hc.2.1 hc.2.2 e1
        exact mem g1 (h1.trans hs) (h2.2.1 x hx) _
      | ptr m el => simp only [gen] at e; exact hB g s desc b rest x nm el g' hs hx hnm hdot hc e
      | arr m el =>
        simp only [gen] at e; cases e
        have h1 := define_other n g m hc (contDef m el)
        obtain ⟨h2, h3⟩ := mem _ (h1.1.trans hs) (h1.2.trans hx) (.tns m)
        exact ⟨(dep_eq _ _ _).2.trans h2, by unfold D; rw [(dep_eq _ _ _).1]; exact h3⟩
    · intro g desc rest x b g' hs hx e
      simp only [gen] at e
      generalize hg0 : (if desc ≠ [] ∧ desc.contains Json.dot = false then { g with root := (desc, .tns b) } else g) = g0 at e
      have h0 : g0.stack = g.stack ∧ D n g0 = D n g := by
        subst hg0; split <;> exact ⟨rfl, rfl⟩
      have hd : g0.desc = desc := by
        unfold G.desc
        rw [h0.1, hs]
      rw [if_pos hd] at e
      obtain ⟨g1, e1, e⟩ := bind_ok e
      simp only [addBase, h0.1, hs, Bool.false_eq_true, if_false] at e1
      cases e1
      have hx1 : D n { g0.append n [.opn .complexContent none, .opn .extension (some (.tns b))] with
          stack := ⟨false, false, n, desc, some (.tns b)⟩ :: rest } =
          some (x ++ [.opn .complexContent none, .opn .extension (some (.tns b))]) := by
        have := append_D n g0 n [.opn .complexContent none, .opn .extension (some (.tns b))]
        rw [if_pos rfl, h0.2, hx] at this
        exact this
      obtain ⟨h3, h4⟩ := keepBody b _ _ g' _ hx1 e
      exact ⟨h3, h4⟩
    · intro g x ty g' hx h1 h2 hc e
      cases ty with
      | fund y => simp only [gen] at e; cases e; rw [show Json.tail [] = [] from rfl, member_nil]; exact ⟨rfl, hx⟩
      | str => simp only [gen] at e; cases e; rw [show Json.tail [] = [] from rfl, member_nil]; exact ⟨rfl, hx⟩
      | enum m k =>
        simp only [gen] at e; cases e
        have h1 := define_other n g m hc (enumDef m k)
        rw [show Json.tail [] = [] from rfl, member_nil]
        exact ⟨h1.1, h1.2.trans hx⟩
      | cls m => exact absurd rfl (h1 m)
      | cont m el =>
        simp only [gen] at e
        rw [show Json.tail [] = [] from rfl, member_nil] at e
        have h3 := define_other n g m hc.1 (contDef m el)
        have hx' : D n (addDependency (defineType g m (contDef m el)) m el.ref) = some x := by
          unfold D; rw [(dep_eq _ _ _).1]; exact h3.2.trans hx
        obtain ⟨h4, h5⟩ := extraC _ _ el g' _ hx' hc.2 e
        exact ⟨h4.trans ((dep_eq _ _ _).2.trans h3.1), h5⟩
      | pair m a c =>
        obtain ⟨g1, e1, rfl⟩ := pairEq g m _ a c g' e
        obtain ⟨h1, h2⟩ := pairC g m _ a c g1 hc.1 hc.2.1 hc.2.2 e1
        rw [show Json.tail [] = [] from rfl, member_nil]
        exact ⟨h1, h2.2.1 x hx⟩
      | ptr m el => exact absurd rfl (h2 m el)
      | arr m el =>
        simp only [gen] at e; cases e
        have h1 := define_other n g m hc (contDef m el)
        rw [show Json.tail [] = [] from rfl, member_nil]
        exact ⟨(dep_eq _ _ _).2.trans h1.1, by unfold D; rw [(dep_eq _ _ _).1]; exact h1.2.trans hx⟩
end

/-- C68: whatever objects a schema has been generated for, its definition of a class with at most one base, a class,
has exactly one element for each member, in the order of declaration, with its name and schema type, and names the
base; and the class of each object described is defined.  Missing: names of different types that become equal
(`C68_collision_fails`), bases that are not classes (`C68_container_base_fails`), two bases (an exception). -/
theorem C68_members_partial (env : Env) (n : Name) (base : Option Name) (ms : List (Name × Ty)) (hdecl : Declares env n base ms)
    (henv : ∀ m, ∀ i ∈ env m, Clean n i.type) (fuel : Nat) (roots : List (Name × Ty)) (hr : ∀ r ∈ roots, Clean n r.2) (g : G)
    (h : session env fuel roots = .ok g) :
    (∀ d, mfind strLt n g.defs = some d → d = describe n base ms) ∧
    ((∃ r ∈ roots, r.2 = .cls n) → ∃ d, mfind strLt n g.defs = some d) := by
  obtain ⟨hA, -⟩ := main hdecl henv fuel
  have hL : ∀ (l : List (Name × Ty)), (∀ r ∈ l, Clean n r.2) → ∀ g0 g1, TopNot n g0.stack →
      each (fun g (r : Name × Ty) => gen env fuel g r.1 r.2) g0 l = .ok g1 → Leaves n base ms g0 g1 :=
    fun l hl g0 g1 ht e => each_leaves (fun r hr g g' ht e => hA g r.1 r.2 g' ht (hl r hr) e) g0 g1 ht e
  have k := hL roots hr G.empty g trivial h
  refine ⟨fun d hd => ?_, ?_⟩
  · rcases k.2.2 rfl with k | k
    · unfold D at k; rw [k] at hd; cases hd
    · unfold D at k; rw [k] at hd; exact (Option.some.inj hd).symm
  · rintro ⟨r, hr', he⟩
    have : ∀ (l : List (Name × Ty)), (∀ r ∈ l, Clean n r.2) → r ∈ l → ∀ g0 g1, TopNot n g0.stack →
        each (fun g (r : Name × Ty) => gen env fuel g r.1 r.2) g0 l = .ok g1 → ∃ d, D n g1 = some d := by
      intro l
      induction l with
      | nil => intro _ h; simp at h
      | cons a l ih =>
        intro hl hm g0 g1 ht e
        simp only [each] at e
        obtain ⟨g2, e1, e2⟩ := bind_ok e
        have k1 := hA g0 a.1 a.2 g2 ht (hl a (by simp)) e1
        have ht2 := ht.sim k1.1
        rcases List.mem_cons.1 hm with rfl | hm
        · rw [he] at e1
          have hdef : ∃ x, D n g2 = some x := by
            cases fuel with
            | zero => cases e1
            | succ fuel =>
              obtain ⟨hA', hB', hB0', _⟩ := main (base := base) (ms := ms) hdecl henv fuel
              simp only [gen] at e1
              obtain ⟨g3, e3, e4⟩ := bind_ok e1
              have := (body hdecl henv fuel hA' hB' hB0' n _ g3 g2 e4).2.2 rfl
              cases hx : D n g2 with
              | none => exact absurd hx this
              | some x => exact ⟨x, rfl⟩
          obtain ⟨x, hx⟩ := hdef
          exact ⟨x, (hL l (fun r hr => hl r (by simp [hr])) g2 g1 ht2 e2).2.1 x hx⟩
        · exact ih (fun r hr => hl r (by simp [hr])) hm g2 g1 ht2 e2
    exact this roots hr hr' G.empty g trivial h

/-- `class A : B { string s; vector<C> v; shared_ptr<C> p; }`, `class B { int i; }`, `class C { enum E e; }` -/
private def envA : Env := fun n =>
  if n = [65] then [⟨true, [], .cls [66]⟩, ⟨false, [115], .str⟩, ⟨false, [118], .cont [118, 67] (.cls [67])⟩,
    ⟨false, [112], .ptr [112, 67] (.cls [67])⟩]
  else if n = [66] then [⟨false, [105], .fund [105, 110, 116]⟩]
  else if n = [67] then [⟨false, [101], .enum [69] 2⟩]
  else []

example : ∃ g, session envA 10 [([114], .cls [65])] = .ok g ∧ mfind strLt [65] g.defs = some
    [.opn .complexType (some (.tns [65])), .opn .complexContent none, .opn .extension (some (.tns [66])),
      .opn .sequence none, .element [115] (.xs [115, 116, 114, 105, 110, 103]), .element [118] (.tns [118, 67]),
      .element [112] (.tns [67]), .cls .sequence, .cls .extension, .cls .complexContent, .cls .complexType] := by
  have hs : ∃ g, session envA 10 [([114], .cls [65])] = .ok g := ⟨_, rfl⟩
  obtain ⟨g, hs⟩ := hs
  have hd : Declares envA [65] (some [66]) [([115], .str), ([118], .cont [118, 67] (.cls [67])), ([112], .ptr [112, 67] (.cls [67]))] :=
    ⟨rfl, by decide⟩
  have he : ∀ m, ∀ i ∈ envA m, Clean [65] i.type := by
    intro m i hi
    unfold envA at hi
    split at hi
    · simp at hi; rcases hi with rfl | rfl | rfl | rfl <;> simp [Clean]
    · split at hi
      · simp at hi; subst hi; simp [Clean]
      · split at hi
        · simp at hi; subst hi; simp [Clean]
        · simp at hi
  obtain ⟨h1, h2⟩ := C68_members_partial envA [65] _ _ hd he 10 [([114], .cls [65])] (by simp [Clean]) g hs
  obtain ⟨d, hd⟩ := h2 ⟨([114], .cls [65]), by simp, rfl⟩
  exact ⟨g, hs, by rw [hd, h1 d hd]; rfl⟩

/-- `class a__b { int x; }` and `enum a::b`: all characters but letters and digits of a type's name become
underscores. -/
private def clashEnv : Env := fun n =>
  if n = [65] then [⟨false, [101], .enum [97, 95, 95, 98] 1⟩, ⟨false, [99], .cls [97, 95, 95, 98]⟩]
  else if n = [97, 95, 95, 98] then [⟨false, [120], .fund [105, 110, 116]⟩]
  else []

/-- C68 is false when the names of two types become equal: a class is described by the definition of an enum. -/
theorem C68_collision_fails : ∃ g, session clashEnv 10 [([114], .cls [65])] = .ok g ∧
    mfind strLt [97, 95, 95, 98] g.defs = some [.opn .simpleType (some (.tns [97, 95, 95, 98])), .opn .restriction none,
      .enumeration, .cls .restriction, .cls .simpleType] := by
  refine ⟨_, rfl, ?_⟩
  decide

/-- `class A : public vector<int> { int x; }` -/
private def vecEnv : Env := fun n =>
  if n = [65] then [⟨true, [], .cont [118] (.fund [105, 110, 116])⟩, ⟨false, [120], .fund [105, 110, 116]⟩] else []

/-- C68 is false for a class derived from a container: beside the member the class has an element named after the
object the schema was made for. -/
theorem C68_container_base_fails : ∃ g d, session vecEnv 10 [([114, 111, 111, 116], .cls [65])] = .ok g ∧
    mfind strLt [65] g.defs = some d ∧ .element [114, 111, 111, 116] (.tns [118]) ∈ d ∧ .element [120] (.xs [105, 110, 116]) ∈ d := by
  refine ⟨_, _, rfl, rfl, ?_, ?_⟩ <;> decide

end Verif.Xsd
