import Verif.XsdNest

/-! References between the definitions, and termination of the generator. -/
namespace Verif.Xsd
open Verif.OMap

/-- The types of the schema's own namespace a tag refers to (the name of a definition is no
reference). -/
def Tok.refs : Tok → List Name
  | .opn .extension (some (.tns n)) => [n]
  | .element _ (.tns n) => [n]
  | _ => []

/-- `n` is referred to by one of the definitions. -/
def Refd (g : G) (n : Name) : Prop :=
  ∃ m d, mfind strLt m g.defs = some d ∧ ∃ t ∈ d, n ∈ t.refs

def Defd (g : G) (n : Name) : Prop := ∃ d, mfind strLt n g.defs = some d

structure Step (g g' : G) (s : Name → Prop) : Prop where
  mono : ∀ n, Defd g n → Defd g' n
  refs : ∀ n, Refd g' n → Refd g n ∨ s n

theorem Step.of_defs {g g' : G} (h : g'.defs = g.defs) (s : Name → Prop) : Step g g' s :=
  ⟨fun n hn => by unfold Defd; rw [h]; exact hn, fun n hn => .inl (by unfold Refd; rw [← h]; exact hn)⟩

theorem Step.trans {a b c : G} {s s' s'' : Name → Prop} (h : Step a b s) (h' : Step b c s')
    (h1 : ∀ n, s n → s'' n) (h2 : ∀ n, s' n → s'' n) : Step a c s'' := by
  refine ⟨fun n hn => h'.mono n (h.mono n hn), fun n hn => ?_⟩
  rcases h'.refs n hn with hn | hn
  · rcases h.refs n hn with hn | hn
    · exact .inl hn
    · exact .inr (h1 n hn)
  · exact .inr (h2 n hn)

theorem Step.same {a b c : G} {s s' : Name → Prop} (h : Step a b s) (hd : c.defs = b.defs)
    (h1 : ∀ n, s n → s' n) : Step a c s' :=
  h.trans (Step.of_defs hd (fun _ => False)) h1 (by simp)

theorem append_step (g : G) (m : Name) (toks : List Tok) :
    Step g (g.append m toks) (fun n => ∃ t ∈ toks, n ∈ t.refs) := by
  constructor
  · rintro n ⟨d, hd⟩
    unfold Defd G.append
    simp only
    rw [mfind_mput strOrd]
    split
    · exact ⟨_, rfl⟩
    · exact ⟨d, hd⟩
  · rintro n ⟨k, d, hd, t, ht, hn⟩
    unfold G.append at hd
    simp only at hd
    rw [mfind_mput strOrd] at hd
    split at hd
    · simp only [Option.some.injEq] at hd
      subst hd
      rcases List.mem_append.1 ht with ht | ht
      · cases hf : mfind strLt m g.defs with
        | none => simp [hf] at ht
        | some d' =>
          simp only [hf, Option.getD_some] at ht
          exact .inl ⟨m, d', hf, t, ht, hn⟩
      · exact .inr ⟨t, ht, hn⟩
    · exact .inl ⟨k, d, hd, t, ht, hn⟩

theorem put_step (g g' : G) (m : Name) (d : List Tok) (h : g'.defs = mput strLt m d g.defs) :
    Step g g' (fun n => ∃ t ∈ d, n ∈ t.refs) ∧ Defd g' m := by
  refine ⟨⟨?_, ?_⟩, ?_⟩
  · rintro n ⟨d', hd⟩
    unfold Defd
    rw [h, mfind_mput strOrd]
    split
    · exact ⟨_, rfl⟩
    · exact ⟨d', hd⟩
  · rintro n ⟨k, d', hd, t, ht, hn⟩
    rw [h, mfind_mput strOrd] at hd
    split at hd
    · simp only [Option.some.injEq] at hd
      subst hd
      exact .inr ⟨t, ht, hn⟩
    · exact .inl ⟨k, d', hd, t, ht, hn⟩
  · unfold Defd
    rw [h, mfind_mput strOrd]
    exact ⟨d, by simp⟩

theorem addMember_step (g : G) (nm : Name) (r : Ref) :
    Step g (addMember g nm r) (fun n => r = .tns n) := by
  unfold addMember
  split
  · exact Step.of_defs rfl _
  · rename_i top rest hs
    split
    · simp only
      have h1 : Step g (if top.seq then g else g.append top.name [.opn .sequence none]) (fun n => r = .tns n) := by
        split
        · exact Step.of_defs rfl _
        · exact (append_step _ _ _).trans (Step.of_defs rfl (fun _ => False)) (by simp [Tok.refs]) (by simp)
      refine h1.trans (s' := fun n => r = .tns n) ?_ (fun _ h => h) (fun _ h => h)
      generalize (if top.seq then g else g.append top.name [.opn .sequence none]) = g1
      have h2 := append_step { g1 with stack := { top with seq := true } :: rest } top.name [.element nm r]
      have h3 := (Step.of_defs (g := g1) (g' := { g1 with stack := { top with seq := true } :: rest }) rfl (fun _ => False)).trans h2
        (s'' := fun n => r = .tns n) (by simp) (by cases r <;> simp [Tok.refs, eq_comm])
      exact h3.trans (Step.of_defs (addDependency_defs _ _ _) (fun _ => False)) (fun _ h => h) (by simp)
    · exact Step.of_defs rfl _

theorem addBase_step (g g' : G) (r : Ref) (h : addBase g r = .ok g') :
    Step g g' (fun n => r = .tns n) := by
  unfold addBase at h
  split at h
  · simp only [R.ok.injEq] at h; subst h; exact Step.of_defs rfl _
  · split at h
    · simp only [R.ok.injEq] at h; subst h; exact Step.of_defs rfl _
    · split at h
      · simp only [R.ok.injEq] at h
        subst h
        refine (append_step g _ [.opn .complexContent none, .opn .extension (some r)]).same rfl ?_
        cases r <;> simp [Tok.refs, eq_comm]
      · split at h
        · simp only [R.ok.injEq] at h; subst h; exact Step.of_defs rfl _
        · simp at h

theorem openType_step (g : G) (n d : Name) :
    Step g (openType g n d) (fun _ => False) ∧ Defd (openType g n d) n := by
  unfold openType
  split
  · rename_i h
    refine ⟨Step.of_defs (by rfl) _, ?_⟩
    unfold G.defined at h
    exact Option.isSome_iff_exists.1 h
  · have := put_step g { g with stack := ⟨false, false, n, d, none⟩ :: g.stack, defs := mput strLt n [.opn .complexType (some (.tns n))] g.defs } n _ rfl
    refine ⟨⟨this.1.mono, fun m hm => ?_⟩, this.2⟩
    rcases this.1.refs m hm with h | h
    · exact .inl h
    · simp [Tok.refs] at h

theorem closeType_step (g : G) : Step g (closeType g) (fun _ => False) := by
  unfold closeType
  split
  · exact Step.of_defs rfl _
  · rename_i top rest hs
    simp only
    split
    · exact Step.of_defs (by rfl) _
    · refine (append_step g top.name _).same (c := { g.append top.name _ with stack := rest }) rfl ?_
      rintro n ⟨t, ht, hn⟩
      have hnone : t.refs = [] := by
        simp only [List.mem_append] at ht
        rcases ht with ((ht | ht) | ht) | ht
        · split at ht <;> simp at ht
          subst ht; rfl
        · split at ht <;> simp at ht
          subst ht; rfl
        · split at ht <;> simp at ht
          rcases ht with rfl | rfl <;> rfl
        · simp at ht; subst ht; rfl
      simp [hnone] at hn

theorem defineType_step (g : G) (n : Name) (d : List Tok) :
    Step g (defineType g n d) (fun n => ∃ t ∈ d, n ∈ t.refs) ∧ Defd (defineType g n d) n := by
  unfold defineType
  split
  · rename_i h
    refine ⟨Step.of_defs rfl _, ?_⟩
    unfold G.defined at h
    exact Option.isSome_iff_exists.1 h
  · exact put_step _ _ _ _ rfl

/-- C arrays only of types which need no definition. -/
def Ty.plainArrays : Ty → Prop
  | .cont _ e => e.plainArrays
  | .pair _ a b => a.plainArrays ∧ b.plainArrays
  | .ptr _ e => e.plainArrays
  | .arr _ e => ∀ n, e.ref ≠ .tns n
  | _ => True

/-- References made are to what is defined, and so is the type itself. -/
structure Closed (g : G) (ty : Ty) (g' : G) : Prop where
  step : Step g g' (Defd g')
  self : ∀ n, ty.bare.ref = .tns n → Defd g' n

def GoodRefs (f : G → Name → Ty → R G) : Prop :=
  ∀ g d ty g', ty.plainArrays → f g d ty = .ok g' → Closed g ty g'

theorem items_refs {f : G → Name → Ty → R G} (hf : GoodRefs f) (d : Name) :
    ∀ (l : List Item) (g g' : G), (∀ i ∈ l, i.type.plainArrays) → items f g d l = .ok g' →
      Step g g' (Defd g') := by
  intro l
  induction l with
  | nil =>
    intro g g' _ h
    simp only [items, each, R.ok.injEq] at h
    subst h
    exact Step.of_defs rfl _
  | cons i l ih =>
    intro g g' hl h
    simp only [items, each] at h
    obtain ⟨g1, h1, h2⟩ := R.bind_ok h
    have a := hf _ _ _ _ (hl i (by simp)) h1
    have b := ih g1 g' (fun j hj => hl j (by simp [hj])) h2
    exact a.step.trans b (fun n hn => b.mono n hn) (fun _ h => h)

theorem block_refs {f : G → Name → Ty → R G} (hf : GoodRefs f) (n d : Name) (l : List Item)
    (hl : ∀ i ∈ l, i.type.plainArrays) (g g1 : G) (h : items f (openType g n d) d l = .ok g1) :
    Step g (closeType g1) (Defd (closeType g1)) ∧ Defd (closeType g1) n := by
  obtain ⟨a, a'⟩ := openType_step g n d
  have b := items_refs hf d l _ g1 hl h
  have c := closeType_step g1
  refine ⟨?_, c.mono n (b.mono n a')⟩
  exact (a.trans b (s'' := Defd g1) (by simp) (fun _ h => h)).trans c
    (fun m hm => c.mono m hm) (by simp)

theorem Step.add {g g1 g2 : G} {n : Name} {s : Name → Prop} (h : Step g g1 s) (hs : ∀ m, s m → m = n)
    (h' : Step g1 g2 (Defd g2)) (hn : Defd g2 n) : Step g g2 (Defd g2) :=
  h.trans h' (fun m hm => by rw [hs m hm]; exact hn) (fun _ h => h)

theorem gen_refs (env : Env) (henv : ∀ n, ∀ i ∈ env n, i.type.plainArrays) :
    ∀ fuel, GoodRefs (gen env fuel) := by
  intro fuel
  induction fuel with
  | zero => intro g d ty g' _ h; simp [gen] at h
  | succ fuel ih =>
    intro g d ty g' hp he
    cases ty with
    | fund n =>
      simp only [gen, R.ok.injEq] at he
      subst he
      refine ⟨?_, by simp [Ty.bare, Ty.ref]⟩
      exact (addMember_step _ _ _).trans (Step.of_defs rfl (fun _ => False)) (by simp) (by simp)
    | str =>
      simp only [gen, R.ok.injEq] at he
      subst he
      refine ⟨?_, by simp [Ty.bare, Ty.ref]⟩
      exact (addMember_step _ _ _).trans (Step.of_defs rfl (fun _ => False)) (by simp) (by simp)
    | enum n k =>
      simp only [gen, R.ok.injEq] at he
      subst he
      obtain ⟨a, a'⟩ := defineType_step g n (enumDef n k)
      have b := addMember_step (defineType g n (enumDef n k)) (Json.tail d) (.tns n)
      refine ⟨?_, ?_⟩
      · refine a.trans b ?_ ?_
        · rintro m ⟨t, ht, hm⟩
          simp only [enumDef, List.mem_append, List.mem_cons, List.mem_replicate, List.not_mem_nil,
            or_false] at ht
          rcases ht with ((rfl | rfl) | ⟨_, rfl⟩) | rfl | rfl <;> simp [Tok.refs] at hm
        · intro m hm
          simp only [Ref.tns.injEq] at hm
          exact hm ▸ b.mono n a'
      · intro m hm
        simp only [Ty.bare, Ty.ref, Ty.name, Ref.tns.injEq] at hm
        exact hm ▸ b.mono n a'
    | cls n =>
      simp only [gen] at he
      obtain ⟨g1, h1, he⟩ := R.bind_ok he
      obtain ⟨g2, h2, he⟩ := R.bind_ok he
      simp only [R.ok.injEq] at he
      subst he
      have hg0 : (if d ≠ [] ∧ d.contains Json.dot = false then { g with root := (d, Ref.tns n) } else g).defs = g.defs := by
        split <;> rfl
      generalize (if d ≠ [] ∧ d.contains Json.dot = false then { g with root := (d, Ref.tns n) } else g) = g0 at hg0 h1
      have a : Step g0 g1 (fun m => Ref.tns n = .tns m) := by
        split at h1
        · exact addBase_step _ _ _ h1
        · simp only [R.ok.injEq] at h1
          subst h1
          exact addMember_step _ _ _
      have a' : Step g g1 (fun m => Ref.tns n = .tns m) :=
        (Step.of_defs hg0 (fun _ => False)).trans a (by simp) (fun _ h => h)
      obtain ⟨b, c⟩ := block_refs ih n d (env n) (henv n) g1 g2 h2
      refine ⟨a'.add (n := n) (fun m hm => by simpa using hm.symm) b c, ?_⟩
      intro m hm
      simp only [Ty.bare, Ty.ref, Ty.name, Ref.tns.injEq] at hm
      exact hm ▸ c
    | cont n e =>
      simp only [gen] at he
      have a := addMember_step g (Json.tail d) (.tns n)
      generalize addMember g (Json.tail d) (.tns n) = g1 at *
      obtain ⟨b, b'⟩ := defineType_step g1 n (contDef n e)
      have c := Step.of_defs (addDependency_defs (defineType g1 n (contDef n e)) n e.ref) (fun _ => False)
      generalize defineType g1 n (contDef n e) = g2 at *
      generalize addDependency g2 n e.ref = g3 at *
      have hrefs : ∀ m, (∃ t ∈ contDef n e, m ∈ t.refs) → e.ref = .tns m := by
        rintro m ⟨t, ht, hm⟩
        simp only [contDef, List.mem_cons, List.not_mem_nil, or_false] at ht
        rcases ht with rfl | rfl | rfl | rfl | rfl <;> try simp [Tok.refs] at hm
        cases hr : e.ref with
        | xs k => simp [hr, Tok.refs] at hm
        | tns k => simp [hr, Tok.refs] at hm; rw [hm]
      have fin : Step g3 g' (Defd g') ∧ ∀ m, e.ref = .tns m → Defd g' m := by
        have other : e.bare = e → gen env fuel g3 [] e = .ok g' →
            Step g3 g' (Defd g') ∧ ∀ m, e.ref = .tns m → Defd g' m := by
          intro hnp he
          have k := ih g3 [] e g' hp he
          refine ⟨k.step, fun m hm => k.self m (by rw [hnp]; exact hm)⟩
        cases e with
        | str =>
          simp only [extra, R.ok.injEq] at he
          subst he
          exact ⟨Step.of_defs rfl _, by simp [Ty.ref]⟩
        | cls m =>
          simp only [extra] at he
          obtain ⟨g4, h4, he⟩ := R.bind_ok he
          simp only [R.ok.injEq] at he
          subst he
          obtain ⟨p, q⟩ := block_refs ih m _ (env m) (henv m) g3 g4 h4
          refine ⟨p, fun k hk => ?_⟩
          simp only [Ty.ref, Ty.name, Ref.tns.injEq] at hk
          exact hk ▸ q
        | ptr m e => simp [extra] at he
        | fund m => exact other rfl he
        | enum m k => exact other rfl he
        | cont m e => exact other rfl he
        | pair m x y => exact other rfl he
        | arr m e => exact other rfl he
      obtain ⟨p, q⟩ := fin
      have hn : Defd g' n := p.mono n (c.mono n b')
      refine ⟨?_, ?_⟩
      · have bc : Step g1 g' (Defd g') :=
          (b.trans (s'' := fun m => e.ref = .tns m) c hrefs (by simp)).trans p q (fun _ h => h)
        exact a.add (n := n) (fun m hm => by simpa using hm.symm) bc hn
      · intro m hm
        simp only [Ty.bare, Ty.ref, Ty.name, Ref.tns.injEq] at hm
        exact hm ▸ hn
    | pair n x y =>
      simp only [gen] at he
      obtain ⟨g1, h1, he⟩ := R.bind_ok he
      obtain ⟨g2, h2, he⟩ := R.bind_ok he
      simp only [R.ok.injEq] at he
      subst he
      obtain ⟨o, o'⟩ := openType_step g n d
      have k1 := ih _ _ _ g1 hp.1 h1
      have k2 := ih _ _ _ g2 hp.2 h2
      have c := closeType_step g2
      have m := addMember_step (closeType g2) (Json.tail d) (.tns n)
      have hn : Defd (addMember (closeType g2) (Json.tail d) (.tns n)) n :=
        m.mono n (c.mono n (k2.step.mono n (k1.step.mono n o')))
      refine ⟨?_, ?_⟩
      · have s1 : Step g g1 (Defd g1) := o.trans k1.step (by simp) (fun _ h => h)
        have s2 : Step g g2 (Defd g2) := s1.trans k2.step (fun x hx => k2.step.mono x hx) (fun _ h => h)
        have s3 : Step g (closeType g2) (Defd (closeType g2)) :=
          s2.trans c (fun x hx => c.mono x hx) (by simp)
        refine s3.trans m (fun x hx => m.mono x hx) ?_
        intro x hx
        simp only [Ref.tns.injEq] at hx
        exact hx ▸ hn
      · intro x hx
        simp only [Ty.bare, Ty.ref, Ty.name, Ref.tns.injEq] at hx
        exact hx ▸ hn
    | ptr n e =>
      simp only [gen] at he
      have k := ih g d e g' hp he
      exact ⟨k.step, k.self⟩
    | arr n e =>
      simp only [gen, R.ok.injEq] at he
      subst he
      obtain ⟨a, a'⟩ := defineType_step g n (contDef n e)
      have b := addMember_step (defineType g n (contDef n e)) (Json.tail d) (.tns n)
      have c := Step.of_defs (addDependency_defs (addMember (defineType g n (contDef n e)) (Json.tail d) (.tns n)) n e.ref) (fun _ => False)
      have hn := c.mono n (b.mono n a')
      refine ⟨?_, ?_⟩
      · refine (a.trans b (s'' := fun m => m = n) ?_ ?_).trans c ?_ (by simp)
        · rintro m ⟨t, ht, hm⟩
          simp only [contDef, List.mem_cons, List.not_mem_nil, or_false] at ht
          rcases ht with rfl | rfl | rfl | rfl | rfl <;> try simp [Tok.refs] at hm
          cases hr : e.ref with
          | xs k => simp [hr, Tok.refs] at hm
          | tns k => exact absurd hr (hp k)
        · intro m hm
          simpa using hm.symm
        · rintro m rfl
          exact hn
      · intro x hx
        simp only [Ty.bare, Ty.ref, Ty.name, Ref.tns.injEq] at hx
        exact hx ▸ hn

/-! ### Termination -/

/-- The classes whose descriptors are run while generating for a type. -/
def Ty.classes : Ty → List Name
  | .cls n => [n]
  | .cont _ e => e.classes
  | .pair _ a b => a.classes ++ b.classes
  | .ptr _ e => e.classes
  | _ => []

/-- The classes a class contains, directly or through containers and so on, or has as bases. -/
def uses (env : Env) (n : Name) : List Name := (env n).flatMap (·.type.classes)

/-- The descriptor of `c` is run through with `fuel` left. -/
def Runs (env : Env) (fuel : Nat) (c : Name) : Prop :=
  ∃ g d g', items (gen env fuel) g d (env c) = .ok g'

theorem gen_runs (env : Env) : ∀ (fuel : Nat) (ty : Ty) (g : G) (d : Name) (g' : G),
    gen env fuel g d ty = .ok g' → ∀ c ∈ ty.classes, ∃ f, f < fuel ∧ Runs env f c := by
  intro fuel
  induction fuel with
  | zero => intro ty g d g' h; simp [gen] at h
  | succ fuel ih =>
    intro ty g d g' he c hc
    cases ty with
    | fund n => simp [Ty.classes] at hc
    | str => simp [Ty.classes] at hc
    | enum n k => simp [Ty.classes] at hc
    | arr n e => simp [Ty.classes] at hc
    | cls n =>
      simp only [Ty.classes, List.mem_singleton] at hc
      subst hc
      simp only [gen] at he
      obtain ⟨g1, h1, he⟩ := R.bind_ok he
      obtain ⟨g2, h2, he⟩ := R.bind_ok he
      exact ⟨fuel, by omega, _, _, _, h2⟩
    | pair n x y =>
      simp only [gen] at he
      obtain ⟨g1, h1, he⟩ := R.bind_ok he
      obtain ⟨g2, h2, he⟩ := R.bind_ok he
      simp only [Ty.classes, List.mem_append] at hc
      rcases hc with hc | hc
      · obtain ⟨f, hf, hr⟩ := ih _ _ _ _ h1 c hc
        exact ⟨f, by omega, hr⟩
      · obtain ⟨f, hf, hr⟩ := ih _ _ _ _ h2 c hc
        exact ⟨f, by omega, hr⟩
    | ptr n e =>
      simp only [gen] at he
      obtain ⟨f, hf, hr⟩ := ih _ _ _ _ he c hc
      exact ⟨f, by omega, hr⟩
    | cont n e =>
      simp only [gen] at he
      have other : ∀ g, gen env fuel g [] e = .ok g' → ∃ f, f < fuel + 1 ∧ Runs env f c := by
        intro g he
        obtain ⟨f, hf, hr⟩ := ih _ _ _ _ he c hc
        exact ⟨f, by omega, hr⟩
      cases e with
      | str => simp [Ty.classes] at hc
      | cls m =>
        simp only [Ty.classes, List.mem_singleton] at hc
        subst hc
        simp only [extra] at he
        obtain ⟨g4, h4, he⟩ := R.bind_ok he
        exact ⟨fuel, by omega, _, _, _, h4⟩
      | ptr m e => simp [extra] at he
      | fund m => exact other _ he
      | enum m k => exact other _ he
      | cont m e => exact other _ he
      | pair m x y => exact other _ he
      | arr m e => exact other _ he

theorem each_ok {σ α : Type} {f : σ → α → R σ} : ∀ {l : List α} {s s' : σ}, each f s l = .ok s' →
    ∀ a ∈ l, ∃ t t', f t a = .ok t' := by
  intro l
  induction l with
  | nil => intro s s' _ a ha; simp at ha
  | cons x l ih =>
    intro s s' h a ha
    simp only [each] at h
    obtain ⟨s1, h1, h2⟩ := R.bind_ok h
    rcases List.mem_cons.1 ha with rfl | ha
    · exact ⟨s, s1, h1⟩
    · exact ih h2 a ha

theorem runs_uses (env : Env) {f : Nat} {c c' : Name} (h : Runs env f c) (hu : c' ∈ uses env c) :
    ∃ f', f' < f ∧ Runs env f' c' := by
  obtain ⟨g, d, g', h⟩ := h
  unfold uses at hu
  rw [List.mem_flatMap] at hu
  obtain ⟨i, hi, hc⟩ := hu
  obtain ⟨t, t', ht⟩ := each_ok h i hi
  exact gen_runs env f _ _ _ _ ht c' hc

theorem runs_reach (env : Env) {c c' : Name} (hr : Reach (uses env) c c') : ∀ {f : Nat}, Runs env f c →
    ∃ f', f' < f ∧ Runs env f' c' := by
  induction hr with
  | one h => intro f hf; exact runs_uses env hf h
  | step h _ ih =>
    intro f hf
    obtain ⟨f1, h1, hf1⟩ := runs_uses env hf h
    obtain ⟨f2, h2, hf2⟩ := ih hf1
    exact ⟨f2, by omega, hf2⟩

theorem runs_acyclic (env : Env) {c : Name} (hr : Reach (uses env) c c) : ∀ f, ¬ Runs env f c := by
  intro f
  induction f using Nat.strongRecOn with
  | ind f ih =>
    intro h
    obtain ⟨f', hf', h'⟩ := runs_reach env hr h
    exact ih f' hf' h'

theorem each_not_deep {σ α : Type} {f : σ → α → R σ} : ∀ {l : List α} {s : σ},
    (∀ a ∈ l, ∀ s, f s a ≠ .deep) → each f s l ≠ .deep := by
  intro l
  induction l with
  | nil => intro s _ h; simp [each] at h
  | cons x l ih =>
    intro s h he
    simp only [each] at he
    cases hx : f s x with
    | ok s1 =>
      simp only [hx, R.bind] at he
      exact ih (fun a ha => h a (by simp [ha])) he
    | throw => simp [hx, R.bind] at he
    | deep => exact h x (by simp) s hx

theorem bind_not_deep {α β : Type} {r : R α} {f : α → R β} (h : r ≠ .deep) (h' : ∀ a, f a ≠ .deep) :
    r.bind f ≠ .deep := by
  cases r with
  | ok a => exact h' a
  | throw => simp [R.bind]
  | deep => exact absurd rfl h

theorem addBase_not_deep (g : G) (r : Ref) : addBase g r ≠ .deep := by
  unfold addBase
  split
  · simp
  · split
    · simp
    · split
      · simp
      · split <;> simp

/-- Enough fuel for a list is enough for each. -/
theorem exists_bound {α : Type} (P : Nat → α → Prop) : ∀ (l : List α),
    (∀ a ∈ l, ∃ N, ∀ f, N ≤ f → P f a) → ∃ N, ∀ f, N ≤ f → ∀ a ∈ l, P f a := by
  intro l
  induction l with
  | nil => intro _; exact ⟨0, by simp⟩
  | cons x l ih =>
    intro h
    obtain ⟨N, hN⟩ := h x (by simp)
    obtain ⟨M, hM⟩ := ih (fun a ha => h a (by simp [ha]))
    refine ⟨N + M, fun f hf a ha => ?_⟩
    rcases List.mem_cons.1 ha with rfl | ha
    · exact hN f (by omega)
    · exact hM f (by omega) a ha

def Fine (env : Env) (f : Nat) (ty : Ty) : Prop := ∀ g d, gen env f g d ty ≠ .deep

theorem fine_of_classes (env : Env) (ty : Ty)
    (h : ∀ c ∈ ty.classes, ∃ N, ∀ f, N ≤ f → ∀ i ∈ env c, Fine env f i.type) :
    ∃ N, ∀ f, N ≤ f → Fine env f ty := by
  have items_nd : ∀ f g d l, (∀ i ∈ l, Fine env f (Item.type i)) → items (gen env f) g d l ≠ .deep := by
    intro f g d l hl
    unfold items
    exact each_not_deep (fun i hi s => hl i hi _ _)
  have simple : (∀ f g d, gen env (f + 1) g d ty ≠ .deep) → ∃ N, ∀ f, N ≤ f → Fine env f ty := by
    intro h
    refine ⟨1, fun f hf g d => ?_⟩
    obtain ⟨f, rfl⟩ : ∃ f', f = f' + 1 := ⟨f - 1, by omega⟩
    exact h f g d
  induction ty with
  | fund n => exact simple (by simp [gen])
  | str => exact simple (by simp [gen])
  | enum n k => exact simple (by simp [gen])
  | arr n e _ => exact simple (by simp [gen])
  | cls n =>
    obtain ⟨N, hN⟩ := h n (by simp [Ty.classes])
    refine ⟨N + 1, fun f hf g d => ?_⟩
    obtain ⟨f, rfl⟩ : ∃ f', f = f' + 1 := ⟨f - 1, by omega⟩
    simp only [gen]
    refine bind_not_deep ?_ fun g1 => bind_not_deep (items_nd f _ _ _ (hN f (by omega))) (by simp)
    generalize (if d ≠ [] ∧ d.contains Json.dot = false then { g with root := (d, Ref.tns n) } else g) = g0
    split
    · exact addBase_not_deep _ _
    · simp
  | ptr n e ih =>
    clear simple
    obtain ⟨N, hN⟩ := ih h (by
      intro h
      refine ⟨1, fun f hf g d => ?_⟩
      obtain ⟨f, rfl⟩ : ∃ f', f = f' + 1 := ⟨f - 1, by omega⟩
      exact h f g d)
    refine ⟨N + 1, fun f hf g d => ?_⟩
    obtain ⟨f, rfl⟩ : ∃ f', f = f' + 1 := ⟨f - 1, by omega⟩
    simp only [gen]
    exact hN f (by omega) g d
  | pair n a b iha ihb =>
    clear simple
    have mk : ∀ ty, (∀ f g d, gen env (f + 1) g d ty ≠ .deep) → ∃ N, ∀ f, N ≤ f → Fine env f ty := by
      intro ty h
      refine ⟨1, fun f hf g d => ?_⟩
      obtain ⟨f, rfl⟩ : ∃ f', f = f' + 1 := ⟨f - 1, by omega⟩
      exact h f g d
    obtain ⟨N, hN⟩ := iha (fun c hc => h c (by simp [Ty.classes, hc])) (mk _)
    obtain ⟨M, hM⟩ := ihb (fun c hc => h c (by simp [Ty.classes, hc])) (mk _)
    refine ⟨N + M + 1, fun f hf g d => ?_⟩
    obtain ⟨f, rfl⟩ : ∃ f', f = f' + 1 := ⟨f - 1, by omega⟩
    simp only [gen]
    exact bind_not_deep (hN f (by omega) _ _) fun g1 =>
      bind_not_deep (hM f (by omega) _ _) (by simp)
  | cont n e ih =>
    clear simple
    obtain ⟨N, hN⟩ := ih h (by
      intro h
      refine ⟨1, fun f hf g d => ?_⟩
      obtain ⟨f, rfl⟩ : ∃ f', f = f' + 1 := ⟨f - 1, by omega⟩
      exact h f g d)
    obtain ⟨M, hM⟩ : ∃ M, ∀ f, M ≤ f → ∀ c ∈ e.classes, ∀ i ∈ env c, Fine env f i.type :=
      exists_bound (fun f c => ∀ i ∈ env c, Fine env f i.type) e.classes h
    refine ⟨N + M + 1, fun f hf g d => ?_⟩
    obtain ⟨f, rfl⟩ : ∃ f', f = f' + 1 := ⟨f - 1, by omega⟩
    simp only [gen]
    cases e with
    | str => simp [extra]
    | cls m =>
      simp only [extra]
      exact bind_not_deep (items_nd f _ _ _ (hM f (by omega) m (by simp [Ty.classes]))) (by simp)
    | ptr m e => simp [extra]
    | fund m => exact hN f (by omega) _ _
    | enum m k => exact hN f (by omega) _ _
    | cont m e => exact hN f (by omega) _ _
    | pair m x y => exact hN f (by omega) _ _
    | arr m e => exact hN f (by omega) _ _

theorem fine_of_rank (env : Env) (rank : Name → Nat)
    (hr : ∀ n, ∀ c ∈ uses env n, rank c < rank n) : ∀ k c, rank c < k →
    ∃ N, ∀ f, N ≤ f → ∀ i ∈ env c, Fine env f i.type := by
  intro k
  induction k with
  | zero => intro c h; omega
  | succ k ih =>
    intro c hc
    refine exists_bound (fun f (i : Item) => Fine env f i.type) (env c) fun i hi => ?_
    refine fine_of_classes env i.type fun c' hc' => ih c' ?_
    have := hr c c' (List.mem_flatMap.2 ⟨i, hi, hc'⟩)
    omega

end Verif.Xsd
