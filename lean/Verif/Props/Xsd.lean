import Verif.XsdRefs

/-!
XML schema generation: C37 (order of the output), C38 (nesting), C54 (no dangling references),
C55 (termination), C56 (content model), C57 (root element).
-/
namespace Verif.Xsd
open Verif.OMap

/-- A generator used for several objects, each with its name. -/
def session (env : Env) (fuel : Nat) (roots : List (Name × Ty)) : R G :=
  each (fun g (r : Name × Ty) => gen env fuel g r.1 r.2) G.empty roots

/-! ### C37 -/

/-- Whatever has been defined and whatever dependencies have been recorded (cycles included): the
recursion is no deeper than the number of names occurring, each defined type is written exactly once,
and a type comes after each of its dependencies, unless the dependency in turn depends on it. (Base
classes are not recorded as dependencies, see `C37_base_fails`.) -/
theorem C37_output_partial (g : G) (fuel : Nat) (hf : (univ g).length < fuel) :
    ∃ names, output g fuel = .ok names ∧
      (∀ n, g.defined n = true → names.count n = 1) ∧
      ∀ x y, x ∈ names → y ∈ g.depsOf x → ¬ Reach g.depsOf y x →
        ∃ a b c, names = a ++ y :: b ++ x :: c := by
  obtain ⟨names, h1, h2, h3, _, h5⟩ := output_post g fuel hf
  refine ⟨names, h1, fun n hn => ?_, fun x y hx hy hr => ?_⟩
  · have hm : n ∈ g.defs.map (·.1) := by
      unfold G.defined at hn
      rw [Option.isSome_iff_exists] at hn
      obtain ⟨v, hv⟩ := hn
      have : ∀ (m : List (Name × List Tok)), mfind strLt n m = some v → n ∈ m.map (·.1) := by
        intro m
        induction m with
        | nil => simp [mfind]
        | cons e m ih =>
          obtain ⟨k, w⟩ := e
          intro h
          simp only [mfind] at h
          split at h
          · simp at h
          · split at h
            · simp [ih h]
            · rename_i ha hb
              have : n = k := strOrd.tri _ _ (by simpa using ha) (by simpa using hb)
              simp [this]
      exact this _ hv
    exact Nat.le_antisymm (List.nodup_iff_count.1 h2 n) (List.count_pos_iff.2 (h3 n hm))
  · obtain ⟨pre, post, hp⟩ := List.append_of_mem hx
    have hy' := h5 pre x post hp y hy hr
    obtain ⟨a, b, hab⟩ := List.append_of_mem hy'
    exact ⟨a, b, post, by rw [hp, hab]⟩

/-- Three types, the first depending on the second, the second and the third on each other: the
hypotheses are met and the output is as described. -/
example :
    let g : G := ⟨[([1], [.any]), ([2], [.any]), ([3], [.any])],
      [([1], [([2], ())]), ([2], [([3], ())]), ([3], [([2], ())])], [], ([], .xs [])⟩
    output g 10 = .ok [[3], [2], [1]] ∧ [2] ∈ g.depsOf [1] := by decide

/-- A class "A" derived from a class "B", both with a member. -/
def derivedEnv : Env := fun n =>
  if n = [65] then [⟨true, [], .cls [66]⟩, ⟨false, [97], .fund [105]⟩]
  else if n = [66] then [⟨false, [98], .fund [105]⟩] else []

/-- A base class is not among the dependencies: the derived class "A" is written before its base "B",
although its definition extends "B" and not the other way round. -/
theorem C37_base_fails :
    ∃ g a b, session derivedEnv 10 [([114], .cls [65])] = .ok g ∧
      output g 10 = .ok [[65], [66]] ∧
      mfind strLt [65] g.defs = some a ∧ .opn .extension (some (.tns [66])) ∈ a ∧
      mfind strLt [66] g.defs = some b ∧ (∀ t ∈ b, [65] ∉ t.refs) := by
  refine ⟨_, _, _, rfl, ?_, rfl, ?_, rfl, ?_⟩ <;> decide

/-! ### C38 and C56 -/

/-- Text made of elements inside one another; `ok` says what may stand in an element (or, for `none`,
on its own). -/
inductive Nested (ok : Option Tag → Tok → Bool) : Option Tag → List Tok → Prop
  | nil {p} : Nested ok p []
  | elem {p t a body rest} : ok p (.opn t a) = true → Nested ok (some t) body → Nested ok p rest →
      Nested ok p (.opn t a :: body ++ .cls t :: rest)
  | leaf {p tok rest} : (∀ t a, tok ≠ .opn t a) → (∀ t, tok ≠ .cls t) → ok p tok = true →
      Nested ok p rest → Nested ok p (tok :: rest)

private def Splits (ok : Option Tag → Tok → Bool) (l : List Tok) : List Tag → Prop
  | [] => Nested ok none l
  | t :: st' => ∃ body rest, l = body ++ .cls t :: rest ∧ Nested ok (some t) body ∧
      nest (fun st => ok st.head?) st' rest = some []

private theorem nested_of_nest (ok : Option Tag → Tok → Bool) : ∀ (n : Nat) (st : List Tag)
    (l : List Tok), l.length ≤ n → nest (fun st => ok st.head?) st l = some [] → Splits ok l st := by
  intro n
  induction n with
  | zero =>
    intro st l hl h
    cases l with
    | nil =>
      simp only [nest, Option.some.injEq] at h
      subst h
      exact .nil
    | cons x l => simp at hl
  | succ n ih =>
    intro st l hl h
    cases l with
    | nil =>
      simp only [nest, Option.some.injEq] at h
      subst h
      exact .nil
    | cons x l =>
      simp only [List.length_cons] at hl
      -- a leaf in front
      have leaf : (∀ t a, x ≠ .opn t a) → (∀ t, x ≠ .cls t) → ok st.head? x = true →
          nest (fun st => ok st.head?) st l = some [] → Splits ok (x :: l) st := by
        intro h1 h2 h3 h4
        have := ih st l (by omega) h4
        cases st with
        | nil => exact .leaf h1 h2 h3 this
        | cons t st' =>
          obtain ⟨body, rest, e, hb, hr⟩ := this
          exact ⟨x :: body, rest, by simp [e], .leaf h1 h2 h3 hb, hr⟩
      cases x with
      | opn t a =>
        simp only [nest] at h
        split at h
        · rename_i hok
          obtain ⟨body, rest, e, hb, hr⟩ := ih (t :: st) l (by omega) h
          have hlen : rest.length ≤ n := by
            have := congrArg List.length e
            simp only [List.length_append, List.length_cons] at this
            omega
          have hrest := ih st rest hlen hr
          subst e
          cases st with
          | nil => exact .elem hok hb hrest
          | cons u st' =>
            obtain ⟨body', rest', e', hb', hr'⟩ := hrest
            subst e'
            exact ⟨.opn t a :: body ++ .cls t :: body', rest', by simp, .elem hok hb hb', hr'⟩
        · simp at h
      | cls t =>
        cases st with
        | nil => simp [nest] at h
        | cons u st' =>
          simp only [nest] at h
          split at h
          · rename_i hut
            subst hut
            exact ⟨[], l, rfl, .nil, h⟩
          · simp at h
      | element m r =>
        simp only [nest] at h
        split at h
        · rename_i hok
          exact leaf (by simp) (by simp) hok h
        · simp at h
      | any =>
        simp only [nest] at h
        split at h
        · rename_i hok
          exact leaf (by simp) (by simp) hok h
        · simp at h
      | enumeration =>
        simp only [nest] at h
        split at h
        · rename_i hok
          exact leaf (by simp) (by simp) hok h
        · simp at h

private theorem session_inv {ok} (hok : Permits ok) (env : Env) (hb : ∀ n, BasesFirst (env n))
    (hany : ok [.complexType] .any = true ∨ ∀ n, NonEmpty (env n)) (fuel : Nat)
    (roots : List (Name × Ty)) (g : G) (h : session env fuel roots = .ok g) (n : Name) (d : List Tok)
    (hd : mfind strLt n g.defs = some d) : nest ok [] d = some [] := by
  have key : ∀ (roots : List (Name × Ty)) (g0 : G), Inv ok g0.defs g0.stack → g0.stack = [] →
      each (fun g (r : Name × Ty) => gen env fuel g r.1 r.2) g0 roots = .ok g →
      Inv ok g.defs g.stack ∧ g.stack = [] := by
    intro roots
    induction roots with
    | nil =>
      intro g0 h0 hs he
      simp only [each, R.ok.injEq] at he
      subst he
      exact ⟨h0, hs⟩
    | cons r roots ih =>
      intro g0 h0 hs he
      simp only [each] at he
      obtain ⟨g1, h1, h2⟩ := R.bind_ok he
      have k := gen_good hok env hb hany fuel g0 r.1 r.2 g1 h0
        (fun _ _ t rest ht => by simp [hs] at ht) h1
      refine ih g1 k.inv ?_ h2
      have hr := k.rel
      rw [hs] at hr
      generalize g1.stack = s at hr
      cases hr
      rfl
  obtain ⟨hi, hs⟩ := key roots G.empty
    ⟨by simp [G.empty], by simp [G.empty, mfind], by simp [G.empty]⟩ rfl h
  rcases hi.done n d hd with ⟨t, ht, _⟩ | h'
  · simp [hs] at ht
  · exact h'

/-- When in every class the base classes come before anything else (which they do in a class which is
not derived from a string or a container as well, see `C38_string_base_fails`): every definition the
generator makes is made of properly nested elements. -/
theorem C38_nested_partial (env : Env) (hb : ∀ n, BasesFirst (env n)) (fuel : Nat)
    (roots : List (Name × Ty)) (g : G) (h : session env fuel roots = .ok g) (n : Name) (d : List Tok)
    (hd : mfind strLt n g.defs = some d) : Nested (fun _ _ => true) none d := by
  have hok : Permits (fun _ _ => true) := by constructor <;> simp
  have := session_inv hok env hb (.inl rfl) fuel roots g h n d hd
  exact nested_of_nest (fun _ _ => true) d.length [] d (Nat.le_refl _) this

private theorem derived_first : ∀ n, BasesFirst (derivedEnv n) := by
  intro n
  unfold derivedEnv
  split
  · exact ⟨[⟨true, [], .cls [66]⟩], [⟨false, [97], .fund [105]⟩], rfl, by simp, by simp⟩
  · split
    · exact ⟨[], [⟨false, [98], .fund [105]⟩], rfl, by simp, by simp⟩
    · exact ⟨[], [], rfl, by simp, by simp⟩

/-- The hypotheses are met, with a base. -/
example : ∃ g d, session derivedEnv 10 [([114], .cls [65])] = .ok g ∧ mfind strLt [65] g.defs = some d ∧
    d.length = 9 ∧ Nested (fun _ _ => true) none d := by
  refine ⟨_, _, rfl, rfl, rfl, ?_⟩
  exact C38_nested_partial derivedEnv derived_first 10 [([114], .cls [65])] _ rfl [65] _ rfl

/-- A class "A" derived from std::string and a class "B". -/
def stringBaseEnv : Env := fun n =>
  if n = [65] then [⟨true, [], .str⟩, ⟨true, [], .cls [66]⟩]
  else if n = [66] then [⟨false, [98], .fund [105]⟩] else []

private theorem nest_of_nested (ok : Option Tag → Tok → Bool) {p : Option Tag} {l : List Tok}
    (h : Nested ok p l) : ∀ st, nest (fun _ _ => true) st l = some st := by
  induction h with
  | nil => intro st; rfl
  | @elem p t a body rest hok _ _ ih1 ih2 =>
    intro st
    show nest (fun _ _ => true) st (.opn t a :: (body ++ .cls t :: rest)) = some st
    simp only [nest, if_true]
    rw [nest_append, ih1]
    simp only [Option.bind_some, nest, if_true]
    exact ih2 st
  | @leaf p tok rest h1 h2 hok _ ih =>
    intro st
    cases tok with
    | opn t a => exact absurd rfl (h1 t a)
    | cls t => exact absurd rfl (h2 t)
    | element m r => simpa [nest] using ih st
    | any => simpa [nest] using ih st
    | enumeration => simpa [nest] using ih st

/-- A class derived from a string and from a class, in this order: the string is entered as a member
and opens the sequence, the class then opens its extension inside the sequence, and the tags are closed
in the wrong order. -/
theorem C38_string_base_fails :
    ∃ g d, session stringBaseEnv 10 [([114], .cls [65])] = .ok g ∧ mfind strLt [65] g.defs = some d ∧
      ¬ Nested (fun _ _ => true) none d := by
  refine ⟨_, _, rfl, rfl, fun h => ?_⟩
  have := nest_of_nested _ h []
  revert this
  decide

/-- What XML schema permits inside what, as far as the elements used here are concerned: definitions
at top level, a sequence or a complexContent in a complexType, an extension in that, a sequence in the
extension, elements and wild cards in a sequence. -/
def content : Option Tag → Tok → Bool
  | none, .opn .complexType _ => true
  | none, .opn .simpleType _ => true
  | some .complexType, .opn .complexContent _ => true
  | some .complexType, .opn .sequence _ => true
  | some .complexContent, .opn .extension _ => true
  | some .extension, .opn .sequence _ => true
  | some .sequence, .element _ _ => true
  | some .sequence, .any => true
  | some .simpleType, .opn .restriction _ => true
  | some .restriction, .enumeration => true
  | _, _ => false

/-- When moreover every class has a base or a member, every definition follows the content model of
XML schema. -/
theorem C56_content_partial (env : Env) (hb : ∀ n, BasesFirst (env n)) (hne : ∀ n, NonEmpty (env n))
    (fuel : Nat) (roots : List (Name × Ty)) (g : G) (h : session env fuel roots = .ok g) (n : Name)
    (d : List Tok) (hd : mfind strLt n g.defs = some d) : Nested content none d := by
  have hok : Permits (fun st => content st.head?) := by
    constructor <;> intros <;> rfl
  have := session_inv hok env hb (.inr hne) fuel roots g h n d hd
  exact nested_of_nest content d.length [] d (Nat.le_refl _) this

/-- The hypotheses are met. -/
example :
    let env : Env := fun n => if n = [65] then [⟨true, [], .cls [66]⟩] else [⟨false, [97], .fund [105]⟩]
    (∀ n, BasesFirst (env n)) ∧ (∀ n, NonEmpty (env n)) ∧
      ∃ g, session env 10 [([114], .cls [65])] = .ok g ∧ g.defs.length = 2 := by
  refine ⟨fun n => ?_, fun n => ?_, _, rfl, rfl⟩
  · by_cases h : n = [65]
    · exact ⟨[⟨true, [], .cls [66]⟩], [], by simp [h], by simp, by simp⟩
    · exact ⟨[], [⟨false, [97], .fund [105]⟩], by simp [h], by simp, by simp⟩
  · by_cases h : n = [65]
    · exact ⟨⟨true, [], .cls [66]⟩, by simp [h], .inl rfl⟩
    · exact ⟨⟨false, [97], .fund [105]⟩, by simp [h], .inr (by simp [Json.DotFree, Json.dot])⟩

/-- In a class without bases and members the wild card stands in the complexType itself, without a
sequence, which XML schema does not permit. -/
theorem C56_empty_class_fails :
    ∃ g d, session (fun _ => []) 10 [([114], .cls [65])] = .ok g ∧ mfind strLt [65] g.defs = some d ∧
      ¬ Nested content none d := by
  refine ⟨_, [.opn .complexType (some (.tns [65])), .any, .cls .complexType], rfl, by decide, fun h => ?_⟩
  generalize hl : [Tok.opn .complexType (some (.tns [65])), .any, .cls .complexType] = l at h
  generalize hp : none = p at h
  cases h with
  | nil => simp at hl
  | leaf h1 h2 _ _ =>
    simp only [List.cons.injEq] at hl
    exact h1 _ _ hl.1.symm
  | @elem _ t a body rest _ hb _ =>
    simp only [List.cons_append, List.cons.injEq, Tok.opn.injEq] at hl
    obtain ⟨⟨rfl, rfl⟩, hl⟩ := hl
    generalize hq : some Tag.complexType = q at hb
    cases hb with
    | nil => simp at hl
    | elem _ _ _ => simp at hl
    | leaf h1 h2 hok _ =>
      simp only [List.cons_append, List.cons.injEq] at hl
      rw [← hl.1, ← hq] at hok
      simp [content] at hok

/-! ### C54 -/

/-- As long as C arrays are of basic types or strings: each type of the schema's own namespace which a
definition in it refers to (as the type of an element, or as a base) is itself defined in it. -/
theorem C54_references_defined_partial (env : Env) (henv : ∀ n, ∀ i ∈ env n, i.type.plainArrays)
    (fuel : Nat) (roots : List (Name × Ty)) (hr : ∀ r ∈ roots, r.2.plainArrays) (g : G)
    (h : session env fuel roots = .ok g) (m : Name) (d : List Tok) (hd : mfind strLt m g.defs = some d)
    (n e : Name) (hn : .element e (.tns n) ∈ d ∨ .opn .extension (some (.tns n)) ∈ d) :
    g.defined n = true := by
  have key : ∀ (roots : List (Name × Ty)) (g0 : G), (∀ r ∈ roots, r.2.plainArrays) →
      (∀ n, Refd g0 n → Defd g0 n) →
      each (fun g (r : Name × Ty) => gen env fuel g r.1 r.2) g0 roots = .ok g →
      ∀ n, Refd g n → Defd g n := by
    intro roots
    induction roots with
    | nil =>
      intro g0 _ h0 he
      simp only [each, R.ok.injEq] at he
      subst he
      exact h0
    | cons r roots ih =>
      intro g0 hr h0 he
      simp only [each] at he
      obtain ⟨g1, h1, h2⟩ := R.bind_ok he
      have k := gen_refs env henv fuel g0 r.1 r.2 g1 (hr r (by simp)) h1
      refine ih g1 (fun s hs => hr s (by simp [hs])) (fun n hn => ?_) h2
      rcases k.step.refs n hn with hn | hn
      · exact k.step.mono n (h0 n hn)
      · exact hn
  have := key roots G.empty hr (by rintro n ⟨m, d, hd, _⟩; simp [G.empty, mfind] at hd) h n ?_
  · unfold G.defined
    exact Option.isSome_iff_exists.2 this
  · rcases hn with hn | hn
    · exact ⟨m, d, hd, _, hn, by simp [Tok.refs]⟩
    · exact ⟨m, d, hd, _, hn, by simp [Tok.refs]⟩

/-- The hypotheses are met: a class with a vector of pairs of an enum and a class. -/
example :
    let env : Env := fun n => if n = [65] then
        [⟨false, [118], .cont [86] (.pair [80] (.enum [69] 2) (.cls [66]))⟩]
      else [⟨false, [97], .fund [105]⟩]
    (∀ n, ∀ i ∈ env n, i.type.plainArrays) ∧
      ∃ g d, session env 10 [([114], .cls [65])] = .ok g ∧ g.defs.length = 5 ∧
        mfind strLt [86] g.defs = some d ∧ .element [80] (.tns [80]) ∈ d := by
  refine ⟨fun n => ?_, _, _, rfl, rfl, rfl, by decide⟩
  by_cases h : n = [65]
  · simp [h, Ty.plainArrays]
  · simp [h, Ty.plainArrays]

/-- A class "A" with a C array of a class "B". -/
def arrayEnv : Env := fun n =>
  if n = [65] then [⟨false, [97], .arr [67] (.cls [66])⟩]
  else if n = [66] then [⟨false, [98], .fund [105]⟩] else []

/-- For a C array of a class the schema refers to the class without defining it. -/
theorem C54_array_fails :
    ∃ g d, session arrayEnv 10 [([114], .cls [65])] = .ok g ∧ mfind strLt [67] g.defs = some d ∧
      .element [66] (.tns [66]) ∈ d ∧ g.defined [66] = false := by
  refine ⟨_, _, rfl, rfl, ?_, ?_⟩ <;> decide

/-- And if the schema has been written out once, the class is taken for defined from then on: describing
an object of the class itself does not define it any more (without the output in between, it does). -/
theorem C54_after_output_fails :
    ∃ g names g', session arrayEnv 10 [([114], .cls [65])] = .ok g ∧ output g 10 = .ok names ∧
      gen arrayEnv 10 (afterOutput g names) [115] (.cls [66]) = .ok g' ∧
      mfind strLt [66] g'.defs = some [] ∧
      ∃ g'', gen arrayEnv 10 g [115] (.cls [66]) = .ok g'' ∧
        (mfind strLt [66] g''.defs).map List.length = some 6 := by
  refine ⟨_, _, _, rfl, rfl, rfl, ?_, _, rfl, ?_⟩ <;> decide

/-! ### C55 -/

/-- If the classes contain one another without a cycle, generation ends, for every type made of them,
every state of the generator and every name. -/
theorem C55_terminates_partial (env : Env) (rank : Name → Nat)
    (hr : ∀ n, ∀ c ∈ uses env n, rank c < rank n) (ty : Ty) :
    ∃ N, ∀ fuel, N ≤ fuel → ∀ g d, gen env fuel g d ty ≠ .deep := by
  obtain ⟨N, hN⟩ := fine_of_classes env ty fun c _ => fine_of_rank env rank hr (rank c + 1) c (by omega)
  exact ⟨N, hN⟩

example : ∀ n, ∀ c ∈ uses derivedEnv n, (fun n => if n = [65] then 1 else 0) c
    < (fun n : Name => if n = [65] then 1 else 0) n := by
  intro n c hc
  by_cases h : n = [65]
  · simp [uses, derivedEnv, h, Ty.classes] at hc
    simp [h, hc]
  · by_cases h' : n = [66]
    · simp [uses, derivedEnv, h', Ty.classes] at hc
    · simp [uses, derivedEnv, h, h'] at hc

/-- But a class which contains itself, directly or through other classes (by containers or shared
pointers, say), is never finished: whatever the room for the recursion, generation does not succeed. -/
theorem C55_recursive_fails (env : Env) (c : Name) (hr : Reach (uses env) c c) (fuel : Nat) (g : G)
    (d : Name) (g' : G) : gen env fuel g d (.cls c) ≠ .ok g' := by
  intro h
  obtain ⟨f, _, hf⟩ := gen_runs env fuel _ _ _ _ h c (by simp [Ty.classes])
  exact runs_acyclic env hr f hf

/-- A tree: a class with a vector of itself. -/
def treeEnv : Env := fun _ => [⟨false, [99], .cont [86] (.cls [65])⟩]

private theorem tree_cont (fuel : Nat) : ∀ (g : G) (d : Name),
    gen treeEnv fuel g d (.cont [86] (.cls [65])) = .deep := by
  induction fuel with
  | zero => intro g d; rfl
  | succ fuel ih =>
    intro g d
    simp only [gen, extra, items, treeEnv, each]
    rw [ih]
    rfl

/-- For a tree the recursion exceeds any room. -/
theorem C55_tree_fails (fuel : Nat) (d : Name) : gen treeEnv fuel G.empty d (.cls [65]) = .deep := by
  cases fuel with
  | zero => rfl
  | succ fuel =>
    have key : ∀ g, items (gen treeEnv fuel) g d (treeEnv [65]) = .deep := by
      intro g
      show (gen treeEnv fuel g (sub d [99]) (.cont [86] (.cls [65]))).bind _ = _
      rw [tree_cont]
      rfl
    simp only [gen]
    rw [show ∀ g0 : G, g0 = G.empty ∨ g0 = { G.empty with root := (d, Ref.tns [65]) } →
        (if g0.desc = d then addBase g0 (.tns [65]) else .ok (addMember g0 (Json.tail d) (.tns [65]))) = .ok g0 from ?_]
    · simp only [R.bind, key]
    · split
      · exact .inr rfl
      · exact .inl rfl
    · rintro g0 (rfl | rfl)
      · split <;> rfl
      · split <;> rfl

/-! ### C57 -/

private def dotted (d : Name) : Prop := d = [] ∨ d.contains Json.dot = true

private theorem root_addDep (g : G) (n : Name) (r : Ref) : (addDependency g n r).root = g.root := by
  cases r <;> rfl

private theorem root_addMember (g : G) (n : Name) (r : Ref) : (addMember g n r).root = g.root := by
  unfold addMember
  split
  · rfl
  · split
    · simp only [root_addDep]
      unfold G.append
      split <;> rfl
    · rfl

private theorem root_addBase (g g' : G) (r : Ref) (h : addBase g r = .ok g') : g'.root = g.root := by
  unfold addBase at h
  split at h
  · simp only [R.ok.injEq] at h; subst h; rfl
  · split at h
    · simp only [R.ok.injEq] at h; subst h; rfl
    · split at h
      · simp only [R.ok.injEq] at h; subst h; rfl
      · split at h
        · simp only [R.ok.injEq] at h; subst h; rfl
        · simp at h

private theorem root_open (g : G) (n d : Name) : (openType g n d).root = g.root := by
  unfold openType; split <;> rfl

private theorem root_define (g : G) (n : Name) (d : List Tok) : (defineType g n d).root = g.root := by
  unfold defineType; split <;> rfl

private theorem root_close (g : G) : (closeType g).root = g.root := by
  unfold closeType
  split
  · rfl
  · simp only
    split <;> rfl

private theorem sub_dotted (d n : Name) : dotted (sub d n) := by
  right
  simp [sub]

private theorem items_root {f : G → Name → Ty → R G}
    (hf : ∀ g d ty g', dotted d → f g d ty = .ok g' → g'.root = g.root) (d : Name) :
    ∀ (l : List Item) (g g' : G), (∀ i ∈ l, i.base = false) → items f g d l = .ok g' →
      g'.root = g.root := by
  intro l
  induction l with
  | nil =>
    intro g g' _ h
    simp only [items, each, R.ok.injEq] at h
    rw [h]
  | cons i l ih =>
    intro g g' hl h
    simp only [items, each] at h
    obtain ⟨g1, h1, h2⟩ := R.bind_ok h
    have := hl i (by simp)
    simp only [this, Bool.false_eq_true, if_false] at h1
    rw [ih g1 g' (fun j hj => hl j (by simp [hj])) h2, hf _ _ _ _ (sub_dotted _ _) h1]

private theorem gen_root (env : Env) (hb : ∀ n, ∀ i ∈ env n, i.base = false) : ∀ (fuel : Nat) (g : G)
    (d : Name) (ty : Ty) (g' : G), dotted d → gen env fuel g d ty = .ok g' → g'.root = g.root := by
  intro fuel
  induction fuel with
  | zero => intro g d ty g' _ h; simp [gen] at h
  | succ fuel ih =>
    intro g d ty g' hd he
    cases ty with
    | fund n => simp only [gen, R.ok.injEq] at he; subst he; exact root_addMember _ _ _
    | str => simp only [gen, R.ok.injEq] at he; subst he; exact root_addMember _ _ _
    | enum n k =>
      simp only [gen, R.ok.injEq] at he; subst he
      rw [root_addMember, root_define]
    | arr n e =>
      simp only [gen, R.ok.injEq] at he; subst he
      rw [root_addDep, root_addMember, root_define]
    | ptr n e => simp only [gen] at he; exact ih _ _ _ _ hd he
    | pair n a b =>
      simp only [gen] at he
      obtain ⟨g1, h1, he⟩ := R.bind_ok he
      obtain ⟨g2, h2, he⟩ := R.bind_ok he
      simp only [R.ok.injEq] at he
      subst he
      rw [root_addMember, root_close, ih _ _ _ _ (sub_dotted _ _) h2, ih _ _ _ _ (sub_dotted _ _) h1,
        root_open]
    | cls n =>
      simp only [gen] at he
      obtain ⟨g1, h1, he⟩ := R.bind_ok he
      obtain ⟨g2, h2, he⟩ := R.bind_ok he
      simp only [R.ok.injEq] at he
      subst he
      rw [root_close, items_root ih _ _ _ _ (hb n) h2, root_open]
      have hno : ¬ (d ≠ [] ∧ d.contains Json.dot = false) := by
        rintro ⟨h1, h2⟩
        rcases hd with h | h
        · exact h1 h
        · rw [h] at h2
          simp at h2
      rw [if_neg hno] at h1
      split at h1
      · exact root_addBase _ _ _ h1
      · simp only [R.ok.injEq] at h1
        subst h1
        exact root_addMember _ _ _
    | cont n e =>
      simp only [gen] at he
      have hr : (addDependency (defineType (addMember g (Json.tail d) (.tns n)) n (contDef n e)) n e.ref).root
          = g.root := by rw [root_addDep, root_define, root_addMember]
      generalize addDependency (defineType (addMember g (Json.tail d) (.tns n)) n (contDef n e)) n e.ref = g2 at *
      rw [← hr]
      cases e with
      | str => simp only [extra, R.ok.injEq] at he; rw [he]
      | cls m =>
        simp only [extra] at he
        obtain ⟨g4, h4, he⟩ := R.bind_ok he
        simp only [R.ok.injEq] at he
        subst he
        rw [root_close, items_root ih _ _ _ _ (hb m) h4, root_open]
      | ptr m e => simp [extra] at he
      | fund m => exact ih _ _ _ _ (.inl rfl) he
      | enum m k => exact ih _ _ _ _ (.inl rfl) he
      | cont m e => exact ih _ _ _ _ (.inl rfl) he
      | pair m x y => exact ih _ _ _ _ (.inl rfl) he
      | arr m e => exact ih _ _ _ _ (.inl rfl) he

/-- When no class has a base class described under its own name (there are no base classes, or the
descriptors distinguish bases from members): the schema's root element has the name given for the
object and the object's type, whatever was described before. -/
theorem C57_root_partial (env : Env) (hb : ∀ n, ∀ i ∈ env n, i.base = false) (fuel : Nat) (g g' : G)
    (d n : Name) (hd : d ≠ []) (hdot : Json.dot ∉ d) (h : gen env fuel g d (.cls n) = .ok g') :
    g'.root = (d, .tns n) := by
  cases fuel with
  | zero => simp [gen] at h
  | succ fuel =>
    simp only [gen] at h
    obtain ⟨g1, h1, h⟩ := R.bind_ok h
    obtain ⟨g2, h2, h⟩ := R.bind_ok h
    simp only [R.ok.injEq] at h
    subst h
    rw [root_close, items_root (gen_root env hb fuel) _ _ _ _ (hb n) h2, root_open]
    have hy : d ≠ [] ∧ d.contains Json.dot = false := ⟨hd, by simpa using hdot⟩
    rw [if_pos hy] at h1
    split at h1
    · rw [root_addBase _ _ _ h1]
    · simp only [R.ok.injEq] at h1
      subst h1
      rw [root_addMember]

example :
    let env : Env := fun n => if n = [65] then [⟨false, [98], .cls [66]⟩] else [⟨false, [97], .fund [105]⟩]
    (∀ n, ∀ i ∈ env n, i.base = false) ∧ Json.dot ∉ [(114 : UInt8)] ∧
      ∃ g, gen env 10 G.empty [114] (.cls [65]) = .ok g := by
  refine ⟨fun n => ?_, by decide, _, rfl⟩
  by_cases h : n = [65] <;> simp [h]

/-- With a base class the root element gets the type of the base class: an object of the class "A",
derived from "B", is announced as a "B". -/
theorem C57_base_fails :
    ∃ g, session derivedEnv 10 [([114], .cls [65])] = .ok g ∧ g.root = ([114], .tns [66]) :=
  ⟨_, rfl, by decide⟩

end Verif.Xsd
