import Verif.XsdOut
import Verif.JsonPath

/-! Nesting of the tags in the definitions. -/
namespace Verif.Xsd
open Verif.OMap

/-- A stack of open tags running over the text; `ok` says what may stand inside what. -/
def nest (ok : List Tag → Tok → Bool) : List Tag → List Tok → Option (List Tag)
  | st, [] => some st
  | st, .opn t a :: l => if ok st (.opn t a) then nest ok (t :: st) l else none
  | [], .cls _ :: _ => none
  | u :: st, .cls t :: l => if u = t then nest ok st l else none
  | st, .element n r :: l => if ok st (.element n r) then nest ok st l else none
  | st, .any :: l => if ok st .any then nest ok st l else none
  | st, .enumeration :: l => if ok st .enumeration then nest ok st l else none

theorem nest_append (ok : List Tag → Tok → Bool) : ∀ (st : List Tag) (a b : List Tok),
    nest ok st (a ++ b) = (nest ok st a).bind (fun st => nest ok st b) := by
  intro st a
  induction a generalizing st with
  | nil => intro b; simp [nest]
  | cons x a ih =>
    intro b
    cases x with
    | opn t r => simp only [List.cons_append, nest]; split <;> simp [ih]
    | cls t =>
      cases st with
      | nil => simp [nest]
      | cons u st => simp only [List.cons_append, nest]; split <;> simp [ih]
    | element n r => simp only [List.cons_append, nest]; split <;> simp [ih]
    | any => simp only [List.cons_append, nest]; split <;> simp [ih]
    | enumeration => simp only [List.cons_append, nest]; split <;> simp [ih]

/-- What a notion of "may stand inside" has to permit. -/
structure Permits (ok : List Tag → Tok → Bool) : Prop where
  ct : ∀ a, ok [] (.opn .complexType a) = true
  st : ∀ a, ok [] (.opn .simpleType a) = true
  cc : ok [.complexType] (.opn .complexContent none) = true
  ext : ∀ a, ok [.complexContent, .complexType] (.opn .extension a) = true
  seq : ok [.complexType] (.opn .sequence none) = true
  seq' : ok [.extension, .complexContent, .complexType] (.opn .sequence none) = true
  el : ∀ st n r, ok (.sequence :: st) (.element n r) = true
  any : ok [.sequence, .complexType] .any = true
  res : ok [.simpleType] (.opn .restriction none) = true
  enm : ∀ st, ok (.restriction :: st) .enumeration = true

/-- The tags open in the definition of a type under construction. -/
def openTags (t : Top) : List Tag :=
  (if t.seq then [.sequence] else []) ++
    (if t.base.isSome then [.extension, .complexContent] else []) ++ [.complexType]

structure Inv (ok : List Tag → Tok → Bool) (defs : List (Name × List Tok)) (stack : List Top) : Prop where
  opn : ∀ t ∈ stack, t.complete = false →
    ∃ d, mfind strLt t.name defs = some d ∧ nest ok [] d = some (openTags t)
  done : ∀ n d, mfind strLt n defs = some d →
    (∃ t ∈ stack, t.complete = false ∧ t.name = n) ∨ nest ok [] d = some []
  distinct : stack.Pairwise (fun t t' => t.complete = false → t'.complete = false → t.name ≠ t'.name)

theorem Inv.append {ok defs t rest} (h : Inv ok defs (t :: rest)) (hc : t.complete = false)
    {toks : List Tok} {t' : Top} (hn : t'.name = t.name) (hc' : t'.complete = false)
    (hk : nest ok (openTags t) toks = some (openTags t')) :
    Inv ok (mput strLt t.name ((mfind strLt t.name defs).getD [] ++ toks) defs) (t' :: rest) := by
  have hd := List.pairwise_cons.1 h.distinct
  constructor
  · intro u hu huc
    rw [mfind_mput strOrd]
    rcases List.mem_cons.1 hu with rfl | hu
    · obtain ⟨d, h1, h2⟩ := h.opn t (by simp) hc
      refine ⟨d ++ toks, by simp [hn, h1], ?_⟩
      rw [nest_append, h2]
      simpa using hk
    · have hne := hd.1 u hu hc huc
      obtain ⟨d, h1, h2⟩ := h.opn u (by simp [hu]) huc
      exact ⟨d, by rw [if_neg (Ne.symm hne)]; exact h1, h2⟩
  · intro n d hf
    rw [mfind_mput strOrd] at hf
    split at hf
    · rename_i hq
      exact .inl ⟨t', by simp, hc', by rw [hn, hq]⟩
    · rename_i hq
      rcases h.done n d hf with ⟨u, hu, huc, hun⟩ | h'
      · rcases List.mem_cons.1 hu with rfl | hu
        · exact absurd hun.symm hq
        · exact .inl ⟨u, by simp [hu], huc, hun⟩
      · exact .inr h'
  · refine List.pairwise_cons.2 ⟨?_, hd.2⟩
    intro u hu _ huc
    rw [hn]
    exact hd.1 u hu hc huc

theorem Inv.close {ok defs t rest} (h : Inv ok defs (t :: rest)) (hc : t.complete = false)
    {toks : List Tok} (hk : nest ok (openTags t) toks = some []) :
    Inv ok (mput strLt t.name ((mfind strLt t.name defs).getD [] ++ toks) defs) rest := by
  have hd := List.pairwise_cons.1 h.distinct
  constructor
  · intro u hu huc
    rw [mfind_mput strOrd]
    have hne := hd.1 u hu hc huc
    obtain ⟨d, h1, h2⟩ := h.opn u (by simp [hu]) huc
    exact ⟨d, by rw [if_neg (Ne.symm hne)]; exact h1, h2⟩
  · intro n d hf
    rw [mfind_mput strOrd] at hf
    split at hf
    · obtain ⟨d', h1, h2⟩ := h.opn t (by simp) hc
      right
      simp only [h1, Option.getD_some, Option.some.injEq] at hf
      rw [← hf, nest_append, h2]
      simpa using hk
    · rename_i hq
      rcases h.done n d hf with ⟨u, hu, huc, hun⟩ | h'
      · rcases List.mem_cons.1 hu with rfl | hu
        · exact absurd hun.symm hq
        · exact .inl ⟨u, hu, huc, hun⟩
      · exact .inr h'
  · exact hd.2

theorem Inv.pop {ok defs t rest} (h : Inv ok defs (t :: rest)) (hc : t.complete = true) :
    Inv ok defs rest := by
  have hd := List.pairwise_cons.1 h.distinct
  constructor
  · exact fun u hu => h.opn u (by simp [hu])
  · intro n d hf
    rcases h.done n d hf with ⟨u, hu, huc, hun⟩ | h'
    · rcases List.mem_cons.1 hu with rfl | hu
      · simp [hc] at huc
      · exact .inl ⟨u, hu, huc, hun⟩
    · exact .inr h'
  · exact hd.2

theorem Inv.openType {ok} (hok : Permits ok) {g : G} (h : Inv ok g.defs g.stack) (n d : Name) :
    Inv ok (openType g n d).defs (openType g n d).stack := by
  unfold Xsd.openType
  split
  · constructor
    · intro u hu huc
      rcases List.mem_cons.1 hu with rfl | hu
      · simp at huc
      · exact h.opn u hu huc
    · intro m d hf
      rcases h.done m d hf with ⟨u, hu, huc, hun⟩ | h'
      · exact .inl ⟨u, by simp [hu], huc, hun⟩
      · exact .inr h'
    · exact List.pairwise_cons.2 ⟨by simp, h.distinct⟩
  · rename_i hdef
    have hno : mfind strLt n g.defs = none := by
      unfold G.defined at hdef
      simpa using hdef
    have hne : ∀ u ∈ g.stack, u.complete = false → u.name ≠ n := by
      rintro u hu huc rfl
      obtain ⟨d', h1, _⟩ := h.opn u hu huc
      simp [hno] at h1
    constructor
    · intro u hu huc
      simp only
      rw [mfind_mput strOrd]
      rcases List.mem_cons.1 hu with rfl | hu
      · exact ⟨_, by simp; rfl, by simp [nest, hok.ct, openTags]⟩
      · rw [if_neg (hne u hu huc)]
        exact h.opn u hu huc
    · intro m d' hf
      simp only at hf
      rw [mfind_mput strOrd] at hf
      split at hf
      · rename_i hq
        exact .inl ⟨⟨false, false, n, d, none⟩, by simp, rfl, hq.symm⟩
      · rcases h.done m d' hf with ⟨u, hu, huc, hun⟩ | h'
        · exact .inl ⟨u, by simp [hu], huc, hun⟩
        · exact .inr h'
    · exact List.pairwise_cons.2 ⟨fun u hu _ huc => (hne u hu huc).symm, h.distinct⟩

theorem Inv.defineType {ok} {g : G} (h : Inv ok g.defs g.stack) (n : Name) (d : List Tok)
    (hd : nest ok [] d = some []) :
    Inv ok (defineType g n d).defs (defineType g n d).stack := by
  unfold Xsd.defineType
  split
  · exact h
  · rename_i hdef
    have hno : mfind strLt n g.defs = none := by
      unfold G.defined at hdef
      simpa using hdef
    constructor
    · intro u hu huc
      obtain ⟨d', h1, h2⟩ := h.opn u hu huc
      refine ⟨d', ?_, h2⟩
      simp only
      rw [mfind_mput strOrd, if_neg ?_]
      · exact h1
      · intro he
        rw [he, hno] at h1
        simp at h1
    · intro m d' hf
      simp only at hf
      rw [mfind_mput strOrd] at hf
      split at hf
      · simp only [Option.some.injEq] at hf
        exact .inr (hf ▸ hd)
      · exact h.done m d' hf
    · exact h.distinct

theorem addDependency_defs (g : G) (n : Name) (r : Ref) : (addDependency g n r).defs = g.defs := by
  cases r <;> rfl

theorem addDependency_stack (g : G) (n : Name) (r : Ref) : (addDependency g n r).stack = g.stack := by
  cases r <;> rfl

/-- The top of the stack keeps its identity, and what has been opened stays open. -/
structure Rel (t t' : Top) : Prop where
  name : t'.name = t.name
  desc : t'.desc = t.desc
  complete : t'.complete = t.complete
  seq : t.seq = true → t'.seq = true
  base : t.base.isSome = true → t'.base.isSome = true

theorem Rel.refl (t : Top) : Rel t t := ⟨rfl, rfl, rfl, id, id⟩

theorem Rel.trans {a b c : Top} (h : Rel a b) (h' : Rel b c) : Rel a c :=
  ⟨h'.name.trans h.name, h'.desc.trans h.desc, h'.complete.trans h.complete,
    fun x => h'.seq (h.seq x), fun x => h'.base (h.base x)⟩

inductive SRel : List Top → List Top → Prop
  | nil : SRel [] []
  | cons {t t' rest} : Rel t t' → SRel (t :: rest) (t' :: rest)

theorem SRel.refl : ∀ s, SRel s s
  | [] => .nil
  | t :: _ => .cons (Rel.refl t)

theorem SRel.trans {a b c : List Top} (h : SRel a b) (h' : SRel b c) : SRel a c := by
  cases h with
  | nil => exact h'
  | cons r => cases h' with
    | cons r' => exact .cons (r.trans r')

theorem SRel.desc {g g' : G} (h : SRel g.stack g'.stack) : g'.desc = g.desc := by
  unfold G.desc
  generalize g.stack = s at *
  generalize g'.stack = s' at *
  cases h with
  | nil => rfl
  | cons r => exact r.desc

/-- The top, if any and not complete, has its sequence. -/
def HasSeq (s : List Top) : Prop := ∀ t rest, s = t :: rest → t.complete = false → t.seq = true
def HasBase (s : List Top) : Prop := ∀ t rest, s = t :: rest → t.complete = false → t.base.isSome = true
def NoSeq (s : List Top) : Prop := ∀ t rest, s = t :: rest → t.complete = false → t.seq = false

theorem SRel.hasSeq {s s' : List Top} (h : SRel s s') (hs : HasSeq s) : HasSeq s' := by
  cases h with
  | nil => exact hs
  | cons r =>
    intro t rest he hc
    simp only [List.cons.injEq] at he
    obtain ⟨rfl, rfl⟩ := he
    exact r.seq (hs _ _ rfl (r.complete ▸ hc))

theorem SRel.hasBase {s s' : List Top} (h : SRel s s') (hs : HasBase s) : HasBase s' := by
  cases h with
  | nil => exact hs
  | cons r =>
    intro t rest he hc
    simp only [List.cons.injEq] at he
    obtain ⟨rfl, rfl⟩ := he
    exact r.base (hs _ _ rfl (r.complete ▸ hc))

theorem addMember_post {ok} (hok : Permits ok) {g : G} (h : Inv ok g.defs g.stack) (n : Name) (r : Ref) :
    Inv ok (addMember g n r).defs (addMember g n r).stack ∧
      SRel g.stack (addMember g n r).stack ∧ (n ≠ [] → HasSeq (addMember g n r).stack) := by
  unfold addMember
  cases hs : g.stack with
  | nil => simp only; rw [hs] at h ⊢; exact ⟨h, .nil, fun _ t rest he => by simp at he⟩
  | cons top rest =>
    simp only
    split
    · rename_i hc
      rw [addDependency_defs, addDependency_stack]
      obtain ⟨hn, hc⟩ := hc
      rw [hs] at h
      have h1 : Inv ok (if top.seq then g else g.append top.name [.opn .sequence none]).defs
          ({ top with seq := true } :: rest) := by
        split
        · rename_i hseq
          rw [show ({ top with seq := true } : Top) = top by cases top; simp_all]
          exact h
        · rename_i hseq
          refine h.append hc rfl hc ?_
          have hseq : top.seq = false := by simpa using hseq
          cases hb : top.base with
          | none => simp [openTags, hseq, hb, nest, hok.seq]
          | some b => simp [openTags, hseq, hb, nest, hok.seq']
      refine ⟨?_, .cons ⟨rfl, rfl, rfl, fun _ => rfl, id⟩, fun _ t r he _ => ?_⟩
      · have := h1.append hc (toks := [.element n r]) (t' := { top with seq := true }) rfl hc ?_
        · exact this
        · simp [openTags, nest, hok.el]
      · simp only [G.append, List.cons.injEq] at he
        rw [← he.1]
    · rename_i hc
      rw [hs]
      rw [hs] at h
      refine ⟨h, SRel.refl _, fun hn t r he hcc => ?_⟩
      simp only [List.cons.injEq] at he
      obtain ⟨rfl, rfl⟩ := he
      exact absurd ⟨hn, hcc⟩ hc

theorem addBase_post {ok} (hok : Permits ok) {g g' : G} (h : Inv ok g.defs g.stack) (b : Ref)
    (hs : NoSeq g.stack) (he : addBase g b = .ok g') :
    Inv ok g'.defs g'.stack ∧ SRel g.stack g'.stack ∧ NoSeq g'.stack ∧ HasBase g'.stack := by
  unfold addBase at he
  cases hst : g.stack with
  | nil =>
    simp only [hst, R.ok.injEq] at he
    subst he
    rw [hst] at h ⊢
    exact ⟨h, .nil, fun t r he => by simp at he, fun t r he => by simp at he⟩
  | cons top rest =>
    simp only [hst] at he
    rw [hst] at h hs
    split at he
    · rename_i hc
      simp only [R.ok.injEq] at he
      subst he
      rw [hst]
      refine ⟨h, SRel.refl _, hs, fun t r he hcc => ?_⟩
      simp only [List.cons.injEq] at he
      rw [← he.1, hc] at hcc
      simp at hcc
    · rename_i hc
      have hc : top.complete = false := by simpa using hc
      have hseq := hs top rest rfl hc
      cases hb : top.base with
      | none =>
        simp only [hb, R.ok.injEq] at he
        subst he
        refine ⟨?_, .cons ⟨rfl, rfl, rfl, id, fun _ => rfl⟩, ?_, ?_⟩
        · refine h.append hc rfl hc ?_
          simp [openTags, hseq, hb, nest, hok.cc, hok.ext]
        · intro t r he _
          simp only [List.cons.injEq] at he
          rw [← he.1]
          exact hseq
        · intro t r he _
          simp only [List.cons.injEq] at he
          rw [← he.1]
          rfl
      | some c =>
        simp only [hb] at he
        split at he
        · simp only [R.ok.injEq] at he
          subst he
          rw [hst]
          refine ⟨h, SRel.refl _, hs, fun t r he _ => ?_⟩
          simp only [List.cons.injEq] at he
          rw [← he.1, hb]
          rfl
        · simp at he

/-- Closing needs a sequence for the wild card, or a base, or that the wild card may stand in the type
itself. -/
theorem closeType_post {ok} (hok : Permits ok) {g : G} (h : Inv ok g.defs g.stack) (t : Top)
    (rest : List Top) (hs : g.stack = t :: rest)
    (hany : ok [.complexType] .any = true ∨
      (t.complete = false → t.seq = true ∨ t.base.isSome = true)) :
    Inv ok (closeType g).defs (closeType g).stack ∧ (closeType g).stack = rest := by
  unfold closeType
  rw [hs] at h
  simp only [hs]
  refine ⟨?_, trivial⟩
  split
  · rename_i hc
    exact h.pop hc
  · rename_i hc
    have hc : t.complete = false := by simpa using hc
    simp only [hc, true_imp_iff] at hany
    refine h.close hc ?_
    cases hseq : t.seq <;> cases hb : t.base <;>
      simp_all [openTags, nest, hok.any]

theorem tail_sub {c : Name} (hc : Json.DotFree c) (d : Name) : Json.tail (sub d c) = c := by
  unfold Json.tail sub
  have : (d ++ Json.dot :: c).reverse = c.reverse ++ (Json.dot :: d.reverse) := by simp
  rw [this, Json.takeWhile_comp (by unfold Json.DotFree at *; simpa using hc) (.inr ⟨_, rfl⟩)]
  simp

theorem sub_ne (d n : Name) : sub d n ≠ d := by
  intro h
  have := congrArg List.length h
  simp [sub] at this

/-- The class a type is, seen through shared pointers. -/
def Ty.bare : Ty → Ty
  | .ptr _ e => e.bare
  | t => t

/-- The class bases come first. -/
def BasesFirst (l : List Item) : Prop :=
  ∃ bs ms, l = bs ++ ms ∧ (∀ b ∈ bs, b.base = true ∧ ∃ c, b.type = .cls c) ∧ ∀ m ∈ ms, m.base = false

/-- A base, or a member with a proper name. -/
def NonEmpty (l : List Item) : Prop :=
  ∃ i ∈ l, i.base = true ∨ (i.name ≠ [] ∧ Json.DotFree i.name)

/-- What generation keeps. -/
structure Keeps (ok : List Tag → Tok → Bool) (g : G) (d : Name) (ty : Ty) (g' : G) : Prop where
  inv : Inv ok g'.defs g'.stack
  rel : SRel g.stack g'.stack
  asBase : ∀ c, ty = .cls c → g.desc = d → NoSeq g.stack → NoSeq g'.stack ∧ HasBase g'.stack
  asMember : ((∃ c, ty.bare = .cls c) → g.desc ≠ d) → Json.tail d ≠ [] → HasSeq g'.stack

def Good (ok : List Tag → Tok → Bool) (f : G → Name → Ty → R G) : Prop :=
  ∀ g d ty g', Inv ok g.defs g.stack → ((∃ c, ty.bare = .cls c) → g.desc = d → NoSeq g.stack) →
    f g d ty = .ok g' → Keeps ok g d ty g'

theorem R.bind_ok {α β : Type} {r : R α} {f : α → R β} {b : β} (h : r.bind f = .ok b) :
    ∃ a, r = .ok a ∧ f a = .ok b := by
  cases r with
  | ok a => exact ⟨a, rfl, h⟩
  | throw => simp [R.bind] at h
  | deep => simp [R.bind] at h

theorem items_members {ok} {f : G → Name → Ty → R G} (hf : Good ok f) (d : Name) :
    ∀ (l : List Item) (g g' : G), (∀ i ∈ l, i.base = false) → Inv ok g.defs g.stack → g.desc = d →
    items f g d l = .ok g' →
    Inv ok g'.defs g'.stack ∧ SRel g.stack g'.stack ∧
      ((∃ i ∈ l, i.name ≠ [] ∧ Json.DotFree i.name) → HasSeq g'.stack) := by
  intro l
  induction l with
  | nil =>
    intro g g' _ h _ he
    simp only [items, each, R.ok.injEq] at he
    subst he
    exact ⟨h, SRel.refl _, by simp⟩
  | cons i l ih =>
    intro g g' hl h hd he
    simp only [items, each] at he
    obtain ⟨g1, h1, h2⟩ := R.bind_ok he
    have hib := hl i (by simp)
    simp only [hib, Bool.false_eq_true, if_false] at h1
    have hne : g.desc ≠ sub d i.name := by rw [hd]; exact (sub_ne _ _).symm
    have k := hf g _ _ g1 h (fun _ h => absurd h hne) h1
    have hd1 : g1.desc = d := by rw [k.rel.desc, hd]
    obtain ⟨a, b, c⟩ := ih g1 g' (fun j hj => hl j (by simp [hj])) k.inv hd1 h2
    refine ⟨a, k.rel.trans b, ?_⟩
    rintro ⟨j, hj, hn, hdf⟩
    rcases List.mem_cons.1 hj with rfl | hj
    · exact b.hasSeq (k.asMember (fun _ => hne) (by rw [tail_sub hdf]; exact hn))
    · exact c ⟨j, hj, hn, hdf⟩

theorem items_bases {ok} {f : G → Name → Ty → R G} (hf : Good ok f) (d : Name) :
    ∀ (l : List Item) (g g' : G), (∀ i ∈ l, i.base = true ∧ ∃ c, i.type = .cls c) →
    Inv ok g.defs g.stack → g.desc = d → NoSeq g.stack → items f g d l = .ok g' →
    Inv ok g'.defs g'.stack ∧ SRel g.stack g'.stack ∧ (l ≠ [] → HasBase g'.stack) := by
  intro l
  induction l with
  | nil =>
    intro g g' _ h _ _ he
    simp only [items, each, R.ok.injEq] at he
    subst he
    exact ⟨h, SRel.refl _, by simp⟩
  | cons i l ih =>
    intro g g' hl h hd hs he
    simp only [items, each] at he
    obtain ⟨g1, h1, h2⟩ := R.bind_ok he
    obtain ⟨hib, c, hc⟩ := hl i (by simp)
    simp only [hib, if_true] at h1
    have k := hf g _ _ g1 h (fun _ _ => hs) h1
    have hd1 : g1.desc = d := by rw [k.rel.desc, hd]
    have hb := k.asBase c hc hd hs
    obtain ⟨a, b, _⟩ := ih g1 g' (fun j hj => hl j (by simp [hj])) k.inv hd1 hb.1 h2
    exact ⟨a, k.rel.trans b, fun _ => b.hasBase hb.2⟩

theorem each_append {σ α : Type} (f : σ → α → R σ) (a b : List α) (s : σ) :
    each f s (a ++ b) = (each f s a).bind fun s => each f s b := by
  induction a generalizing s with
  | nil => rfl
  | cons x a ih =>
    simp only [List.cons_append, each]
    cases f s x with
    | ok s' => simp only [R.bind]; rw [ih]; rfl
    | throw => rfl
    | deep => rfl

theorem items_post {ok} {f : G → Name → Ty → R G} (hf : Good ok f) (d : Name) (l : List Item)
    (hl : BasesFirst l) (g g' : G) (h : Inv ok g.defs g.stack) (hd : g.desc = d) (hs : NoSeq g.stack)
    (he : items f g d l = .ok g') :
    Inv ok g'.defs g'.stack ∧ SRel g.stack g'.stack ∧
      (NonEmpty l → HasSeq g'.stack ∨ HasBase g'.stack) := by
  obtain ⟨bs, ms, rfl, hbs, hms⟩ := hl
  unfold items at he
  rw [each_append] at he
  obtain ⟨g1, h1, h2⟩ := R.bind_ok he
  obtain ⟨a, b, c⟩ := items_bases hf d bs g g1 hbs h hd hs h1
  obtain ⟨a', b', c'⟩ := items_members hf d ms g1 g' hms a (by rw [b.desc, hd]) h2
  refine ⟨a', b.trans b', ?_⟩
  rintro ⟨i, hi, hn⟩
  rcases List.mem_append.1 hi with hi | hi
  · exact .inr (b'.hasBase (c (List.ne_nil_of_mem hi)))
  · rcases hn with hn | hn
    · simp [hms i hi] at hn
    · exact .inl (c' ⟨i, hi, hn⟩)

theorem openType_stack (g : G) (n d : Name) :
    ∃ t, (openType g n d).stack = t :: g.stack ∧ t.desc = d ∧ t.name = n ∧ t.seq = false ∧ t.base = none ∧
      t.complete = g.defined n := by
  unfold openType
  split
  · rename_i h
    exact ⟨_, rfl, rfl, rfl, rfl, rfl, h.symm⟩
  · rename_i h
    refine ⟨_, rfl, rfl, rfl, rfl, rfl, ?_⟩
    simpa using h

/-- Opening a class, describing it and closing it. -/
theorem block_post {ok} (hok : Permits ok) {f : G → Name → Ty → R G} (hf : Good ok f) (n d : Name)
    (l : List Item) (hl : BasesFirst l) (hany : ok [.complexType] .any = true ∨ NonEmpty l) (g g1 : G)
    (h : Inv ok g.defs g.stack) (he : items f (openType g n d) d l = .ok g1) :
    Inv ok (closeType g1).defs (closeType g1).stack ∧ (closeType g1).stack = g.stack := by
  obtain ⟨t, ht, htd, _, hts, _, _⟩ := openType_stack g n d
  have ho := h.openType hok n d
  have hns : NoSeq (openType g n d).stack := by
    rw [ht]
    intro u r hu _
    simp only [List.cons.injEq] at hu
    rw [← hu.1, hts]
  obtain ⟨a, b, c⟩ := items_post hf d l hl _ g1 ho (by simp [G.desc, ht, htd]) hns he
  rw [ht] at b
  generalize hs1 : g1.stack = s1 at b
  cases b with
  | cons r =>
    rename_i t'
    have := closeType_post hok a t' g.stack hs1 ?_
    · exact this
    · rcases hany with hany | hany
      · exact .inl hany
      · right
        intro hc
        rcases c hany with h' | h'
        · exact .inl (h' t' _ hs1 hc)
        · exact .inr (h' t' _ hs1 hc)

theorem nest_contDef {ok} (hok : Permits ok) (n : Name) (e : Ty) : nest ok [] (contDef n e) = some [] := by
  simp [contDef, nest, hok.ct, hok.seq, hok.el]

theorem nest_enumDef {ok} (hok : Permits ok) (n : Name) (k : Nat) : nest ok [] (enumDef n k) = some [] := by
  have : ∀ k, nest ok [.restriction, .simpleType] (List.replicate k .enumeration ++
      [.cls .restriction, .cls .simpleType]) = some [] := by
    intro k
    induction k with
    | zero => simp [nest]
    | succ k ih => simp [List.replicate_succ, nest, hok.enm, ih]
  simp only [enumDef, List.cons_append, List.nil_append, nest, hok.st, hok.res, if_true]
  exact this k

theorem gen_good {ok} (hok : Permits ok) (env : Env) (hb : ∀ n, BasesFirst (env n))
    (hany : ok [.complexType] .any = true ∨ ∀ n, NonEmpty (env n)) :
    ∀ fuel, Good ok (gen env fuel) := by
  have hany' : ∀ n, ok [.complexType] .any = true ∨ NonEmpty (env n) := by
    intro n
    rcases hany with h | h
    · exact .inl h
    · exact .inr (h n)
  intro fuel
  induction fuel with
  | zero => intro g d ty g' _ _ he; simp [gen] at he
  | succ fuel ih =>
    intro g d ty g' h hpre he
    cases ty with
    | fund n =>
      simp only [gen, R.ok.injEq] at he
      subst he
      obtain ⟨a, b, c⟩ := addMember_post hok h (Json.tail d) (.xs n)
      exact ⟨a, b, by simp, fun _ => c⟩
    | str =>
      simp only [gen, R.ok.injEq] at he
      subst he
      obtain ⟨a, b, c⟩ := addMember_post hok h (Json.tail d) (.xs xsString)
      exact ⟨a, b, by simp, fun _ => c⟩
    | enum n k =>
      simp only [gen, R.ok.injEq] at he
      subst he
      have hd := h.defineType n _ (nest_enumDef hok n k)
      obtain ⟨a, b, c⟩ := addMember_post hok hd (Json.tail d) (.tns n)
      have hst : (defineType g n (enumDef n k)).stack = g.stack := by
        unfold defineType; split <;> rfl
      rw [hst] at b
      exact ⟨a, b, by simp, fun _ => c⟩
    | cls n =>
      simp only [gen] at he
      obtain ⟨g1, h1, he⟩ := R.bind_ok he
      obtain ⟨g2, h2, he⟩ := R.bind_ok he
      simp only [R.ok.injEq] at he
      subst he
      have hg0 : ∀ c : Prop, ∀ [Decidable c], (if c then { g with root := (d, Ref.tns n) } else g).stack = g.stack ∧
          (if c then { g with root := (d, Ref.tns n) } else g).defs = g.defs ∧
          (if c then { g with root := (d, Ref.tns n) } else g).desc = g.desc := by
        intro c _
        split <;> simp [G.desc]
      have hg := hg0 (d ≠ [] ∧ d.contains Json.dot = false)
      generalize (if d ≠ [] ∧ d.contains Json.dot = false then { g with root := (d, Ref.tns n) } else g) = g0 at hg h1
      obtain ⟨hgs, hgd, hgc⟩ := hg
      have h0 : Inv ok g0.defs g0.stack := by rw [hgs, hgd]; exact h
      have main : Inv ok g1.defs g1.stack ∧ SRel g.stack g1.stack ∧
          (g.desc = d → NoSeq g1.stack ∧ HasBase g1.stack) ∧
          (g.desc ≠ d → Json.tail d ≠ [] → HasSeq g1.stack) := by
        rw [← hgs]
        split at h1
        · rename_i hd
          have hns := hpre ⟨n, rfl⟩ (hgc ▸ hd)
          obtain ⟨a, b, c⟩ := addBase_post hok h0 (.tns n) (by rw [hgs]; exact hns) h1
          exact ⟨a, b, fun _ => c, fun hx => absurd (hgc ▸ hd) hx⟩
        · rename_i hd
          simp only [R.ok.injEq] at h1
          subst h1
          obtain ⟨a, b, c⟩ := addMember_post hok h0 (Json.tail d) (.tns n)
          exact ⟨a, b, fun hx => absurd hx (hgc ▸ hd), fun _ => c⟩
      obtain ⟨a, b, c, e⟩ := main
      obtain ⟨p, q⟩ := block_post hok ih n d (env n) (hb n) (hany' n) g1 g2 a h2
      refine ⟨p, by rw [q]; exact b, ?_, ?_⟩
      · intro _ _ hd _
        rw [q]
        exact c hd
      · intro hd
        rw [q]
        exact e (hd ⟨n, rfl⟩)
    | cont n e =>
      simp only [gen] at he
      obtain ⟨a, b, c⟩ := addMember_post hok h (Json.tail d) (.tns n)
      generalize addMember g (Json.tail d) (.tns n) = g1 at *
      have a2 := a.defineType n _ (nest_contDef hok n e)
      have hst : (defineType g1 n (contDef n e)).stack = g1.stack := by
        unfold defineType; split <;> rfl
      rw [← addDependency_defs _ n e.ref, ← addDependency_stack _ n e.ref] at a2
      rw [← addDependency_stack _ n e.ref] at hst
      generalize addDependency (defineType g1 n (contDef n e)) n e.ref = g2 at *
      have fin : Inv ok g'.defs g'.stack ∧ SRel g2.stack g'.stack := by
        have other : (∀ c, e.bare ≠ .cls c) → gen env fuel g2 [] e = .ok g' →
            Inv ok g'.defs g'.stack ∧ SRel g2.stack g'.stack := by
          intro hnc he
          have k := ih g2 [] e g' a2 (fun ⟨c, hc⟩ => absurd hc (hnc c)) he
          exact ⟨k.inv, k.rel⟩
        cases e with
        | str =>
          simp only [extra, R.ok.injEq] at he
          subst he
          exact ⟨a2, SRel.refl _⟩
        | cls m =>
          simp only [extra] at he
          obtain ⟨g3, h3, he⟩ := R.bind_ok he
          simp only [R.ok.injEq] at he
          subst he
          obtain ⟨p, q⟩ := block_post hok ih m _ (env m) (hb m) (hany' m) g2 g3 a2 h3
          exact ⟨p, by rw [q]; exact SRel.refl _⟩
        | ptr m e => simp [extra] at he
        | fund m => exact other (by simp [Ty.bare]) he
        | enum m k => exact other (by simp [Ty.bare]) he
        | cont m e => exact other (by simp [Ty.bare]) he
        | pair m x y => exact other (by simp [Ty.bare]) he
        | arr m e => exact other (by simp [Ty.bare]) he
      obtain ⟨p, q⟩ := fin
      rw [hst] at q
      exact ⟨p, b.trans q, by simp, fun _ hn => q.hasSeq (c hn)⟩
    | pair n x y =>
      simp only [gen] at he
      obtain ⟨g1, h1, he⟩ := R.bind_ok he
      obtain ⟨g2, h2, he⟩ := R.bind_ok he
      simp only [R.ok.injEq] at he
      subst he
      obtain ⟨t, ht, htd, _, hts, _, _⟩ := openType_stack g n d
      have ho := h.openType hok n d
      have hod : (openType g n d).desc = d := by simp [G.desc, ht, htd]
      have k1 := ih _ _ _ g1 ho (fun _ hx => absurd (hod ▸ hx).symm (sub_ne _ _)) h1
      have hd1 : g1.desc = d := by rw [k1.rel.desc, hod]
      have k2 := ih _ _ _ g2 k1.inv (fun _ hx => absurd (hd1 ▸ hx).symm (sub_ne _ _)) h2
      have hseq : HasSeq g2.stack := by
        refine k2.asMember (fun _ hx => absurd (hd1 ▸ hx).symm (sub_ne _ _)) ?_
        rw [tail_sub (by simp [Json.DotFree, Json.dot])]
        decide
      have hr := k1.rel.trans k2.rel
      rw [ht] at hr
      generalize hs2 : g2.stack = s2 at hr
      cases hr with
      | cons r =>
        rename_i t'
        obtain ⟨p, q⟩ := closeType_post hok k2.inv t' g.stack hs2
          (.inr fun hc => .inl (hseq t' _ hs2 hc))
        obtain ⟨a, b, c⟩ := addMember_post hok p (Json.tail d) (.tns n)
        rw [q] at b
        exact ⟨a, b, by simp, fun _ => c⟩
    | ptr n e =>
      simp only [gen] at he
      have k := ih g d e g' h hpre he
      exact ⟨k.inv, k.rel, by simp, k.asMember⟩
    | arr n e =>
      simp only [gen, R.ok.injEq] at he
      subst he
      have hd := h.defineType n _ (nest_contDef hok n e)
      obtain ⟨a, b, c⟩ := addMember_post hok hd (Json.tail d) (.tns n)
      have hst : (defineType g n (contDef n e)).stack = g.stack := by
        unfold defineType; split <;> rfl
      rw [hst] at b
      refine ⟨?_, ?_, by simp, fun _ => ?_⟩
      · rw [addDependency_defs, addDependency_stack]; exact a
      · rw [addDependency_stack]; exact b
      · rw [addDependency_stack]; exact c

end Verif.Xsd
