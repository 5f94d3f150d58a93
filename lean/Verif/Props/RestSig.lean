import Verif.RestSig
import Verif.Props.Rest
import Verif.Props.RestReg
import Verif.Props.RestFn
/-
C123: signatures listed by the REST interface.
-/
namespace Verif.RestSig
open Verif.Rest
open Verif.Rest.C33
open Verif.Rest.C34
open Verif.Rest.C35
open Verif.RestFn
open Verif.RestFn.C119
open Verif.Json (J)
open OMap

/-! ### Specification -/

/-- A name that does not end in a request about an entry. -/
structure C123.Name (d : Str) (ops : List Rest.Op) : Prop where
  ne : d ≠ []
  enum : d ≠ b "@enum.@list"
  free : ∀ op ∈ ops, op.name ≠ d ++ b ".@signature"

/-- C++ lets the function be called on the object with values as arguments, and gives a value that can be shown. -/
structure C123.Callable {R : Type} (f : Meth R) : Prop where
  pars : ∀ p ∈ f.ps, p.m = .val ∨ p.m = .cref
  const : f.member = true → f.onConst = true → f.cst = true
  plain : f.uptr = false

/-- Function `i` is registered under the name, and no other with parameters of the same names later. -/
def C123.Last {R : Type} (nm : Par → Str) (tab : Nat → Meth R) (ops : List Rest.Op) (d : Str) (i : Nat) : Prop :=
  ∃ x y, ops = x ++ .fn d (fnOf nm tab i) :: y ∧ ∀ f, Rest.Op.fn d f ∈ y → f.args ≠ (tab i).ps.map nm

/-- Only functions out of the table are registered under the name, at least one. -/
structure C123.Funs {R : Type} (nm : Par → Str) (tab : Nat → Meth R) (ops : List Rest.Op) (d : Str) : Prop where
  only : ∀ op ∈ ops, op.name = d → ∃ i, op = .fn d (fnOf nm tab i)
  some : ∃ i, Rest.Op.fn d (fnOf nm tab i) ∈ ops

open C123

/-! ### Dispatch -/

private theorem find_none {ops : List Rest.Op} {d : Str} (h : ∀ op ∈ ops, op.name ≠ d) : mfind strLt d (build ops) = none := by
  cases hf : mfind strLt d (build ops) with
  | none => rfl
  | some e =>
    obtain ⟨o, ho, h'⟩ := (C35_registered ops d).1 (by rw [hf]; rfl)
    exact absurd h' (h o ho)

private theorem sig_nodot : ∀ (s : Str) (p rest : Str), s = p ++ rest → s.head? = some 46 → (∀ c ∈ s.drop 1, c ≠ 46) →
    (rest = [] ∨ rest.head? = some 46) → p = [] ∨ rest = [] := by
  intro s p rest h h0 h1 h2
  rcases h2 with h2 | h2
  · exact .inr h2
  · cases p with
    | nil => exact .inl rfl
    | cons c p =>
      cases rest with
      | nil => simp at h2
      | cons r rest =>
        subst h
        simp at h2
        subst h2
        simp at h1
        exact absurd rfl (h1 46 (by simp))

private theorem to_signature {ops : List Rest.Op} {d : Str} (hd : Name d ops) {e : Ent} (hf : mfind strLt d (build ops) = some e) :
    process (build ops) (d ++ b ".@signature") = .signature e := by
  have hq : d ++ b ".@signature" ≠ b "@enum.@list" := by
    intro h
    have := congrArg List.getLast? h
    rw [List.getLast?_append, show (b ".@signature").getLast? = some 101 by decide,
      show (b "@enum.@list").getLast? = some 116 by decide] at this
    simp at this
  rw [C33_longest_partial hq hd.ne ⟨rfl, .inr (.inl (by decide))⟩ hf]
  · simp [answer]
  · intro p' rest' hs hl
    have heq := hs.eq
    obtain ⟨t, ht⟩ : ∃ t, p' = d ++ t := by
      have h1 : d <+: p' ++ rest' := ⟨_, heq⟩
      have h2 : p' <+: p' ++ rest' := ⟨_, rfl⟩
      obtain ⟨t, ht⟩ := List.prefix_of_prefix_length_le h1 h2 (by omega)
      exact ⟨t, ht.symm⟩
    subst ht
    rw [List.append_assoc, List.append_cancel_left_eq] at heq
    have ht : t ≠ [] := by rintro rfl; simp at hl
    have hr : rest' = [] ∨ rest'.head? = some 46 := by
      rcases hs.at' with h | h | h
      · exact .inl h
      · exact .inr h
      · simp [ht] at h
    rcases sig_nodot _ t rest' heq (by decide) (by decide) hr with h | h
    · exact absurd h ht
    · subst h
      rw [List.append_nil] at heq
      rw [← heq]
      exact find_none hd.free

private theorem to_process {ops : List Rest.Op} {d : Str} (hd : Name d ops) {e : Ent} (hf : mfind strLt d (build ops) = some e) :
    process (build ops) d = .process e [] := by
  rw [C33_longest_partial hd.enum hd.ne ⟨by simp, .inl rfl⟩ hf]
  · rw [answer, if_neg (by decide), if_neg (by decide), if_neg (by decide)]
  · intro p' rest' hs hl
    have := congrArg List.length hs.eq
    simp at this
    omega

/-! ### The functions of an entry -/

private theorem mem_funs {R : Type} {nm : Par → Str} {tab : Nat → Meth R} {ops : List Rest.Op} {d : Str} (h : Funs nm tab ops d) (f : Fn) :
    f ∈ funs (mfind strLt d (build ops)) ↔ ∃ i, f = fnOf nm tab i ∧ Last nm tab ops d i := by
  rw [C35_functions_partial]
  constructor
  · rintro ⟨x, y, h1, h2⟩
    obtain ⟨i, hi⟩ := h.only (.fn d f) (by rw [h1]; simp) rfl
    simp only [Rest.Op.fn.injEq, true_and] at hi
    subst hi
    refine ⟨i, rfl, x, y, h1, fun f hf e => h2 _ hf ⟨rfl, e⟩⟩
  · rintro ⟨i, rfl, x, y, h1, h2⟩
    refine ⟨x, y, h1, fun op ho => ?_⟩
    intro hO
    cases op with
    | fn d' g =>
      obtain ⟨rfl, hg⟩ := hO
      exact h2 g ho hg
    | obj d' j w =>
      have hO : d' = d := hO
      obtain ⟨k, hk⟩ := h.only (.obj d' j w) (by rw [h1]; simp [ho]) hO
      cases hk
    | prim d' j => exact hO

private theorem exists_last {R : Type} {nm : Par → Str} {tab : Nat → Meth R} {d : Str} : ∀ {ops : List Rest.Op}
    (_ : ∀ op ∈ ops, op.name = d → ∃ i, op = .fn d (fnOf nm tab i)) {i : Nat} (_ : Rest.Op.fn d (fnOf nm tab i) ∈ ops),
    ∃ j, Last nm tab ops d j ∧ (tab j).ps.map nm = (tab i).ps.map nm := by
  intro ops
  induction ops with
  | nil => intro _ i h; simp at h
  | cons op ops ih =>
    intro ho i hi
    by_cases hl : ∃ k, Rest.Op.fn d (fnOf nm tab k) ∈ ops ∧ (tab k).ps.map nm = (tab i).ps.map nm
    · obtain ⟨k, hk, hk'⟩ := hl
      obtain ⟨j, ⟨x, y, h1, h2⟩, h3⟩ := ih (fun o h => ho o (by simp [h])) hk
      exact ⟨j, ⟨op :: x, y, by rw [h1]; rfl, h2⟩, h3.trans hk'⟩
    · rcases List.mem_cons.1 hi with hi | hi
      · refine ⟨i, ⟨[], ops, by rw [← hi]; rfl, fun f hf e => hl ?_⟩, rfl⟩
        obtain ⟨k, hk⟩ := ho (.fn d f) (by simp [hf]) rfl
        simp only [Rest.Op.fn.injEq, true_and] at hk
        subst hk
        exact ⟨k, hf, e⟩
      · exact absurd ⟨i, hi, rfl⟩ hl

private theorem entry {R : Type} {nm : Par → Str} {tab : Nat → Meth R} {ops : List Rest.Op} {d : Str} (h : Funs nm tab ops d) :
    ∃ e, mfind strLt d (build ops) = some e ∧ ((∃ f, e = .fn f) ∨ ∃ fs, e = .over fs) := by
  obtain ⟨i, hi⟩ := h.some
  obtain ⟨j, hj, _⟩ := exists_last h.only hi
  have := (mem_funs h (fnOf nm tab j)).2 ⟨j, rfl, hj⟩
  cases hf : mfind strLt d (build ops) with
  | none => rw [hf] at this; simp [funs] at this
  | some e =>
    refine ⟨e, rfl, ?_⟩
    cases e with
    | fn f => exact .inl ⟨f, rfl⟩
    | over fs => exact .inr ⟨fs, rfl⟩
    | obj i w => rw [hf] at this; simp [funs] at this

private theorem sigs_funs {e : Ent} (h : (∃ f, e = .fn f) ∨ ∃ fs, e = .over fs) (obs : Nat → Ob) :
    sigs obs e = (funs (some e)).map fun f => (f.ret, f.args) := by
  rcases h with ⟨f, rfl⟩ | ⟨fs, rfl⟩ <;> simp [sigs, funs]

/-! ### C123: listing -/

/-- C123: for a name with functions, `.@signature` lists the last registered of each list of parameter types, once each. -/
theorem C123_listed {R : Type} (obs : Nat → Ob) (nm : Par → Str) (tab : Nat → Meth R) (ops : List Rest.Op) (d : Str) (hd : Name d ops)
    (h : Funs nm tab ops d) : ∃ l, listing obs (build ops) (d ++ b ".@signature") = some l ∧ (l.map (·.2)).Nodup ∧
      ∀ s, s ∈ l ↔ ∃ i, Last nm tab ops d i ∧ s = ((tab i).ret, (tab i).ps.map nm) := by
  obtain ⟨e, he, hk⟩ := entry h
  have hp := C35_one_per_signature ops d
  rw [he] at hp
  refine ⟨sigs obs e, ?_, ?_, fun s => ?_⟩
  · simp only [listing, to_signature hd he]
  · rw [sigs_funs hk, List.map_map, List.nodup_iff_pairwise_ne, List.pairwise_map]
    exact hp
  · rw [sigs_funs hk, List.mem_map]
    have hm := mem_funs h
    rw [he] at hm
    constructor
    · rintro ⟨f, hf, rfl⟩
      obtain ⟨i, rfl, hi⟩ := (hm f).1 hf
      exact ⟨i, hi, rfl⟩
    · rintro ⟨i, hi, rfl⟩
      exact ⟨_, (hm _).2 ⟨i, rfl, hi⟩, rfl⟩

/-- C123: every function registered has its parameter types listed. -/
theorem C123_covered {R : Type} (obs : Nat → Ob) (nm : Par → Str) (tab : Nat → Meth R) (ops : List Rest.Op) (d : Str) (hd : Name d ops)
    (h : Funs nm tab ops d) (i : Nat) (hi : Rest.Op.fn d (fnOf nm tab i) ∈ ops) :
    ∃ l r, listing obs (build ops) (d ++ b ".@signature") = some l ∧ (r, (tab i).ps.map nm) ∈ l := by
  obtain ⟨l, h1, _, h3⟩ := C123_listed obs nm tab ops d hd h
  obtain ⟨j, hj, he⟩ := exists_last h.only hi
  exact ⟨l, (tab j).ret, h1, (h3 _).2 ⟨j, hj, by rw [he]⟩⟩

/-! ### C123: calls -/

private theorem callM_ok {R : Type} (fp : FP) {f : Meth R} (hc : Callable f) {vs : List V} (h : Ofs (f.ps.map (·.t)) vs) :
    callM fp f (.arr (vs.map enc)) = .res (f.run vs) := by
  have h1 : f.ps.all Par.ok = true := by
    rw [List.all_eq_true]
    intro p hp
    rcases hc.pars p hp with e | e <;> simp [Par.ok, e]
  have h2 : f.constOk = true := by
    unfold Meth.constOk
    cases hm : f.member <;> cases ho : f.onConst <;> simp
    exact hc.const hm ho
  simp only [callM, hc.plain, h1, h2]
  exact callOne_ok fp ⟨f.ps.map (·.t), f.run⟩ h

private theorem at_ok {R : Type} {f : Meth R} (hc : ∀ p ∈ f.ps, p.m = .val ∨ p.m = .cref) : f.ps.map Par.at' = (f.ps.map (·.t)).map atOf := by
  rw [List.map_map]
  apply List.map_congr_left
  intro p hp
  rcases hc p hp with e | e <;> simp [Par.at', Par.ok, e]

private theorem unfit : ∀ (ps : List Par) (l : List J) (p : Par), p ∈ ps → p.ok = false → ¬ FitsAll (ps.map Par.at') l
  | [], _, _, h, _, _ => by simp at h
  | q :: ps, [], p, h, _, hf => by simp [FitsAll] at hf
  | q :: ps, j :: l, p, h, hk, hf => by
    simp only [List.map_cons, FitsAll] at hf
    rcases List.mem_cons.1 h with rfl | h
    · have := hf.1
      simp [Fits, Par.at', hk, matches', partly] at this
    · exact unfit ps l p h hk hf.2

/-- C123, partial: a request with values of the parameter types of a function listed calls it with these values, if C++ lets it be called and the
other functions listed can be told apart or cannot be called with any values because of their parameters. -/
theorem C123_called_partial {R : Type} (fp : FP) (nm : Par → Str) (tab : Nat → Meth R) (ops : List Rest.Op) (d : Str) (hd : Name d ops)
    (h : Funs nm tab ops d) (i : Nat) (hi : Last nm tab ops d i) (hc : Callable (tab i)) (vs : List V)
    (hv : Ofs ((tab i).ps.map (·.t)) vs) (hch : ∀ p ∈ (tab i).ps, NoChar p.t) (hfl : ∀ v ∈ vs, Filled v)
    (ha : ∀ j, Last nm tab ops d j → j ≠ i → Apart ((tab i).ps.map (·.t)) ((tab j).ps.map (·.t)) ∧ (∀ p ∈ (tab j).ps, p.m = .val ∨ p.m = .cref) ∨
      ∃ p ∈ (tab j).ps, p.m ≠ .val ∧ p.m ≠ .cref)
    (hn : ∀ j, Last nm tab ops d j → (tab j).ps.length ≤ 4000) :
    request fp tab (build ops) d (.arr (vs.map enc)) = some (.res ((tab i).run vs)) := by
  obtain ⟨e, he, hk⟩ := entry h
  have hm := mem_funs h
  rw [he] at hm
  have hin : fnOf nm tab i ∈ funs (some e) := (hm _).2 ⟨i, rfl, hi⟩
  have hp := C35_one_per_signature ops d
  rw [he] at hp
  simp only [request, to_process hd he]
  have hc' : ∀ t ∈ (tab i).ps.map (·.t), NoChar t := by
    intro t ht
    obtain ⟨p, hp, rfl⟩ := List.mem_map.1 ht
    exact hch p hp
  rcases hk with ⟨f, rfl⟩ | ⟨fs, rfl⟩
  · simp only [funs, List.mem_singleton] at hin
    subst hin
    simp only [fnOf]
    rw [callM_ok fp hc hv]
  · simp only [funs] at hin hp hm
    obtain ⟨as, cs, hs⟩ := List.append_of_mem hin
    have hlen : vs.length = (tab i).ps.length := by rw [ofs_len hv, List.length_map]
    have hch2 : choose (fun f : Fn => matchScore ((tab f.id).ps.map Par.at') (.arr (vs.map enc))) fs = .call (fnOf nm tab i) := by
      rw [C34_call]
      have h0 : matchScore ((tab i).ps.map Par.at') (.arr (vs.map enc)) = 0 := by
        obtain ⟨k1, k2⟩ := fits_of hv hc'
        rw [at_ok hc.pars]
        exact (C34_exact _ [] (vs.map enc) k1 k2 (by simp [hlen])).1
      refine ⟨as, cs, hs, by simp only [fnOf]; rw [h0]; decide, fun g hg => ?_⟩
      simp only [fnOf]
      rw [h0]
      have hg' : g ∈ fs := by
        rw [hs]
        rcases List.mem_append.1 hg with hg | hg <;> simp [hg]
      obtain ⟨j, rfl, hj⟩ := (hm g).1 hg'
      have hij : j ≠ i := by
        rintro rfl
        rw [hs, List.pairwise_append] at hp
        rcases List.mem_append.1 hg with hg | hg
        · exact hp.2.2 _ hg _ (by simp) rfl
        · exact (List.pairwise_cons.1 hp.2.1).1 _ hg rfl
      change 0 < matchScore ((tab j).ps.map Par.at') _
      rcases ha j hj hij with ⟨h1, h2⟩ | ⟨p, hp1, hp2, hp3⟩
      · rw [at_ok h2]
        exact score_pos hv hc' hfl h1 (by simpa using hn i hi) (by simpa using hn j hj)
      · have hnf := unfit (tab j).ps (vs.map enc) p hp1 (by simp [Par.ok, hp2, hp3])
        have hni := hn i hi
        have hnj := hn j hj
        have : ¬ matchScore ((tab j).ps.map Par.at') (.arr (vs.map enc)) < maxScore := fun hlt =>
          hnf ((C34_matchable_partial _ (vs.map enc) (by simp [hlen]; omega) (by simp; omega)).1 hlt)
        have hx : maxScore = 1000000 := rfl
        omega
    simp only [hch2, fnOf]
    rw [callM_ok fp hc hv]

/-- C123, partial: an object that can be changed lists its type without and with an argument of this type, and is set by a request with an
argument (but for weak pointers, for which the name of the pointer is listed). -/
theorem C123_object_partial (obs : Nat → Ob) (x y : List Rest.Op) (d : Str) (i : Nat) (w : Bool) (hd : Name d (x ++ .obj d i w :: y))
    (hy : ∀ op ∈ y, op.name ≠ d) (hk : (obs i).kind = .object ∨ (obs i).kind = .ptr) (hc : (obs i).cst = false) (hn : (obs i).null = false) (j : J) :
    listing obs (build (x ++ .obj d i w :: y)) (d ++ b ".@signature") =
      some (let t := if (obs i).kind = .object then (obs i).tn else (obs i).elem; [(t, []), (t, [t])]) ∧
    requestOb obs (build (x ++ .obj d i w :: y)) d (.arr [j]) = some (.set j) ∧
    requestOb obs (build (x ++ .obj d i w :: y)) d .null = some .same := by
  have he := C35_object x y d i w fun op ho h => absurd h (hy op ho)
  simp only [listing, requestOb, to_signature hd he, to_process hd he, sigs, obSigs, give, assign, hc, hn]
  rcases hk with hk | hk <;> simp [hk]

/-- C123, partial: an enumeration that can be changed takes the names of its enumerators. -/
theorem C123_enum_partial (obs : Nat → Ob) (x y : List Rest.Op) (d : Str) (i : Nat) (w : Bool) (hd : Name d (x ++ .obj d i w :: y))
    (hy : ∀ op ∈ y, op.name ≠ d) (hk : (obs i).kind = .enum) (hc : (obs i).cst = false) (s : Str) (hs : s ∈ (obs i).keys) :
    listing obs (build (x ++ .obj d i w :: y)) (d ++ b ".@signature") =
      some [(b "std::string", []), (b "std::string", [b "std::string"])] ∧
    requestOb obs (build (x ++ .obj d i w :: y)) d (.arr [.str s]) = some (.set (.str s)) ∧
    requestOb obs (build (x ++ .obj d i w :: y)) d (.str s) = some (.set (.str s)) := by
  have he := C35_object x y d i w fun op ho h => absurd h (hy op ho)
  simp only [listing, requestOb, to_signature hd he, to_process hd he, sigs, obSigs, give, hc, hk]
  simp [hs]

/-! ### The code does not do this for other functions and objects -/

private theorem alone {R : Type} {nm : Par → Str} {tab : Nat → Meth R} {ops : List Rest.Op} {d : Str} (h : Funs nm tab ops d) {i : Nat}
    (hi : ∀ j, Last nm tab ops d j → j = i) (hl : Last nm tab ops d i) :
    ∃ e, mfind strLt d (build ops) = some e ∧ (e = .fn (fnOf nm tab i) ∨ e = .over [fnOf nm tab i]) := by
  obtain ⟨e, he, hk⟩ := entry h
  refine ⟨e, he, ?_⟩
  have hm := mem_funs h
  have hp := C35_one_per_signature ops d
  rw [he] at hm hp
  have hin := (hm _).2 ⟨i, rfl, hl⟩
  rcases hk with ⟨f, rfl⟩ | ⟨fs, rfl⟩
  · simp only [funs, List.mem_singleton] at hin
    rw [hin]
    exact .inl rfl
  · right
    simp only [funs] at hin hp hm
    match fs, hin with
    | [f], hin => simp only [List.mem_singleton] at hin; rw [hin]
    | f :: g :: fs, _ =>
      obtain ⟨j, h1, h2⟩ := (hm f).1 (by simp)
      obtain ⟨k, h3, h4⟩ := (hm g).1 (by simp)
      rw [hi j h2] at h1
      rw [hi k h4] at h3
      subst h1 h3
      exact absurd rfl ((List.pairwise_cons.1 hp).1 _ (by simp))

/-- A function is listed but can not be called with anything, if it has a parameter that is a pointer or a reference to what is not const, if it
returns a `unique_ptr`, or if it is not const and the object is. -/
theorem C123_fails_refused {R : Type} (fp : FP) (obs : Nat → Ob) (nm : Par → Str) (tab : Nat → Meth R) (ops : List Rest.Op) (d : Str)
    (hd : Name d ops) (h : Funs nm tab ops d) (i : Nat) (hi : Last nm tab ops d i) (hx : ∀ j, Last nm tab ops d j → j = i)
    (hc : (∃ p ∈ (tab i).ps, p.m ≠ .val ∧ p.m ≠ .cref) ∨ (tab i).uptr = true ∨
      (tab i).member = true ∧ (tab i).onConst = true ∧ (tab i).cst = false) :
    listing obs (build ops) (d ++ b ".@signature") = some [((tab i).ret, (tab i).ps.map nm)] ∧
    ∀ args res, request fp tab (build ops) d args ≠ some (.res res) := by
  obtain ⟨e, he, hk⟩ := alone h hx hi
  have hr : ∀ args, callM fp (tab i) args = .refused := by
    intro args
    unfold callM
    rcases hc with ⟨p, hp, h1, h2⟩ | hc | ⟨h1, h2, h3⟩
    · have : (tab i).ps.all Par.ok = false := by
        rw [List.all_eq_false]
        exact ⟨p, hp, by simp [Par.ok, h1, h2]⟩
      simp [this]
    · simp [hc]
    · have : (tab i).constOk = false := by simp [Meth.constOk, h1, h2, h3]
      simp [this]
  refine ⟨?_, fun args res => ?_⟩
  · simp only [listing, to_signature hd he]
    rcases hk with rfl | rfl <;> simp [sigs, fnOf]
  · simp only [request, to_process hd he]
    rcases hk with rfl | rfl
    · simp [fnOf, hr]
    · simp only [fnOf]
      intro hq
      have hq := Option.some.inj hq
      split at hq
      · cases hq
      · cases hq
      · cases hq
      · rename_i f hf
        obtain ⟨as, cs, hs, _⟩ := (C34_call _ _ _).1 hf
        have : f = ⟨(tab i).ret, (tab i).ps.map nm, i⟩ := by
          have : f ∈ [(⟨(tab i).ret, (tab i).ps.map nm, i⟩ : Fn)] := by rw [hs]; simp
          simpa using this
        rw [this] at hq
        simp [hr] at hq

/-- Of a const and another method with the same parameters only the one registered last is there: if it is the other, nothing can be called on a
const object. -/
theorem C123_fails_const_overload {R : Type} (fp : FP) (obs : Nat → Ob) (nm : Par → Str) (tab : Nat → Meth R) (d : Str) (i k : Nat)
    (hd : Name d [.fn d (fnOf nm tab i), .fn d (fnOf nm tab k)]) (hp : (tab i).ps = (tab k).ps) (_ : Callable (tab i))
    (hm : (tab k).member = true) (ho : (tab k).onConst = true) (hc : (tab k).cst = false) :
    listing obs (build [.fn d (fnOf nm tab i), .fn d (fnOf nm tab k)]) (d ++ b ".@signature") = some [((tab k).ret, (tab k).ps.map nm)] ∧
    ∀ args res, request fp tab (build [.fn d (fnOf nm tab i), .fn d (fnOf nm tab k)]) d args ≠ some (.res res) := by
  refine C123_fails_refused fp obs nm tab _ d hd ⟨?_, i, by simp⟩ k ⟨[_], [], rfl, by simp⟩ ?_ (.inr (.inr ⟨hm, ho, hc⟩))
  · intro op hop _
    rcases List.mem_cons.1 hop with rfl | hop
    · exact ⟨i, rfl⟩
    · rw [List.mem_singleton.1 hop]; exact ⟨k, rfl⟩
  · rintro j ⟨x, y, h1, h2⟩
    match x, h1 with
    | [], h1 =>
      simp only [List.nil_append, List.cons.injEq, Rest.Op.fn.injEq, true_and] at h1
      have hj : i = j := congrArg Fn.id h1.1
      subst hj
      exact absurd (by simp [fnOf, hp]) (h2 (fnOf nm tab k) (by rw [← h1.2]; simp))
    | [_], h1 =>
      simp only [List.cons_append, List.nil_append, List.cons.injEq, Rest.Op.fn.injEq, true_and] at h1
      exact (congrArg Fn.id h1.2.1).symm
    | _ :: _ :: x, h1 => simp at h1

/-- A const object lists that it can be set, and can not. -/
theorem C123_fails_const (obs : Nat → Ob) (x y : List Rest.Op) (d : Str) (i : Nat) (w : Bool) (hd : Name d (x ++ .obj d i w :: y))
    (hy : ∀ op ∈ y, op.name ≠ d) (hk : (obs i).kind = .object) (hc : (obs i).cst = true) (j : J) :
    listing obs (build (x ++ .obj d i w :: y)) (d ++ b ".@signature") = some [((obs i).tn, []), ((obs i).tn, [(obs i).tn])] ∧
    requestOb obs (build (x ++ .obj d i w :: y)) d (.arr [j]) = some .throw := by
  have he := C35_object x y d i w fun op ho h => absurd h (hy op ho)
  simp [listing, requestOb, to_signature hd he, to_process hd he, sigs, obSigs, give, assign, hc, hk]

/-- So does a null pointer, and an argument given to it is lost. -/
theorem C123_fails_null (obs : Nat → Ob) (x y : List Rest.Op) (d : Str) (i : Nat) (w : Bool) (hd : Name d (x ++ .obj d i w :: y))
    (hy : ∀ op ∈ y, op.name ≠ d) (hk : (obs i).kind = .ptr) (hn : (obs i).null = true) (args : J) :
    listing obs (build (x ++ .obj d i w :: y)) (d ++ b ".@signature") = some [((obs i).elem, []), ((obs i).elem, [(obs i).elem])] ∧
    requestOb obs (build (x ++ .obj d i w :: y)) d args = some .void := by
  have he := C35_object x y d i w fun op ho h => absurd h (hy op ho)
  simp [listing, requestOb, to_signature hd he, to_process hd he, sigs, obSigs, give, hn, hk]

/-! ### Functions and objects to which the theorems apply:
`void f(int); void f(const std::string&); int g(int&); int h() const; int h();` of a const object, and objects. -/

def C123.exTab : Nat → Meth Nat
  | 0 => ⟨true, false, false, false, b "void", [⟨.int 32 true, .val⟩], fun _ => 0⟩
  | 1 => ⟨true, false, false, false, b "void", [⟨.str, .cref⟩], fun _ => 1⟩
  | 2 => ⟨true, false, false, false, b "int", [⟨.int 32 true, .lref⟩], fun _ => 2⟩
  | 3 => ⟨true, true, true, false, b "int", [], fun _ => 3⟩
  | _ => ⟨true, true, false, false, b "int", [], fun _ => 4⟩

def C123.exNm (p : Par) : Str :=
  (match p.m with | .cref => b "const " | _ => []) ++ (match p.t with | .str => b "std::string" | _ => b "int") ++
    match p.m with | .cref | .lref => b "&" | .ptr => b "*" | _ => []

def C123.exOps : List Rest.Op := [.fn (b "a.f") (fnOf C123.exNm C123.exTab 0), .fn (b "a.f") (fnOf C123.exNm C123.exTab 1),
  .obj (b "a.x") 0 false, .fn (b "a.g") (fnOf C123.exNm C123.exTab 2)]

def C123.exOb (_ : Nat) : Ob := ⟨.object, b "int", [], false, false, []⟩

private theorem ex_name : Name (b "a.f") exOps := ⟨by decide, by decide, by decide⟩

private theorem ex_funs : Funs exNm exTab exOps (b "a.f") := by
  refine ⟨fun op ho hn => ?_, 0, by simp [exOps]⟩
  simp only [exOps, List.mem_cons, List.not_mem_nil, or_false] at ho
  rcases ho with rfl | rfl | rfl | rfl
  · exact ⟨0, rfl⟩
  · exact ⟨1, rfl⟩
  · exact absurd hn (by decide)
  · exact absurd hn (by decide)

private theorem ex_last : Last exNm exTab exOps (b "a.f") 0 := by
  refine ⟨[], _, rfl, fun f hf => ?_⟩
  simp only [List.mem_cons, Rest.Op.fn.injEq, List.not_mem_nil, or_false, reduceCtorEq, false_or] at hf
  rcases hf with ⟨_, rfl⟩ | ⟨h, _⟩
  · decide
  · exact absurd h (by decide)

private theorem ex_lasts {j : Nat} (h : Last exNm exTab exOps (b "a.f") j) : j = 0 ∨ j = 1 := by
  obtain ⟨x, y, h, _⟩ := h
  have : Rest.Op.fn (b "a.f") (fnOf exNm exTab j) ∈ exOps := by rw [h]; simp
  simp only [exOps, List.mem_cons, Rest.Op.fn.injEq, List.not_mem_nil, or_false, reduceCtorEq, false_or] at this
  rcases this with ⟨_, h⟩ | ⟨_, h⟩ | ⟨h, _⟩
  · exact .inl (congrArg Fn.id h)
  · exact .inr (congrArg Fn.id h)
  · exact absurd h (by decide)

example : listing exOb (build exOps) (b "a.f.@signature") = some [(b "void", [b "int"]), (b "void", [b "const std::string&"])] := by decide +kernel

example (fp : FP) : request fp exTab (build exOps) (b "a.f") (.arr [.int 5]) = some (.res 0) := by
  have := C123_called_partial fp exNm exTab exOps (b "a.f") ex_name ex_funs 0 ex_last ⟨by decide, by decide, rfl⟩ [.int 5]
    (.cons _ _ _ _ (.signed 32 5 (by decide) (by decide) (by decide)) .nil) (by intro p hp; simp [exTab] at hp; subst hp; trivial)
    (by intro v hv; simp at hv; subst hv; exact .int 5) (fun j hj hne => ?_) (fun j hj => ?_)
  · simpa [enc, exTab] using this
  · rcases ex_lasts hj with rfl | rfl
    · exact absurd rfl hne
    · exact .inl ⟨.inr ⟨0, .int 32 true, .str, rfl, rfl, by simp [apart, kind]⟩, by decide⟩
  · rcases ex_lasts hj with rfl | rfl <;> decide

example : requestOb exOb (build exOps) (b "a.x") (.arr [.int 5]) = some (.set (.int 5)) :=
  (C123_object_partial exOb [_, _] [_] (b "a.x") 0 false ⟨by decide, by decide, by decide⟩ (by decide) (.inl rfl) rfl rfl (.int 5)).2.1

example (fp : FP) (args : J) (res : Nat) : request fp exTab (build [.fn (b "h") (fnOf exNm exTab 3), .fn (b "h") (fnOf exNm exTab 4)]) (b "h")
    args ≠ some (.res res) :=
  (C123_fails_const_overload fp exOb exNm exTab (b "h") 3 4 ⟨by decide, by decide, by decide⟩ rfl ⟨by decide, by decide, rfl⟩ rfl rfl rfl).2 args res

/-! ### Requests that are refused -/

/-- C123: values none of two or more functions listed can take (one of them is no match for its parameter, or there are too few) call nothing, and
there is an error. -/
theorem C123_refused_partial {R : Type} (fp : FP) (nm : Par → Str) (tab : Nat → Meth R) (ops : List Rest.Op) (d : Str) (hd : Name d ops)
    (h : Funs nm tab ops d) (i k : Nat) (hi : Last nm tab ops d i) (hk : Last nm tab ops d k) (hik : i ≠ k) (l : List J) (hl : l.length ≤ 4000)
    (hn : ∀ j, Last nm tab ops d j → (tab j).ps.length ≤ 4000 ∧ ¬ FitsAll ((tab j).ps.map Par.at') l) :
    request fp tab (build ops) d (.arr l) = some .noMatch := by
  obtain ⟨e, he, hke⟩ := entry h
  have hm := mem_funs h
  rw [he] at hm
  have h1 : fnOf nm tab i ∈ funs (some e) := (hm _).2 ⟨i, rfl, hi⟩
  have h2 : fnOf nm tab k ∈ funs (some e) := (hm _).2 ⟨k, rfl, hk⟩
  simp only [request, to_process hd he]
  rcases hke with ⟨f, rfl⟩ | ⟨fs, rfl⟩
  · simp only [funs, List.mem_singleton] at h1 h2
    exact absurd (congrArg Fn.id (h1.trans h2.symm)) hik
  · simp only [funs] at h1 hm
    have : choose (fun f : Fn => matchScore ((tab f.id).ps.map Par.at') (.arr l)) fs = .noMatch := by
      rw [C34_no_match _ _ (List.ne_nil_of_mem h1)]
      intro g hg
      obtain ⟨j, rfl, hj⟩ := (hm g).1 hg
      refine Nat.le_of_not_lt fun hlt => (hn j hj).2 ?_
      have := (hn j hj).1
      exact (C34_matchable_partial _ l (by simp; omega) (by simp; omega)).1 hlt
    simp only [this]

private theorem ex_last1 : Last exNm exTab exOps (b "a.f") 1 := by
  refine ⟨[_], _, rfl, fun f hf => ?_⟩
  simp only [List.mem_cons, Rest.Op.fn.injEq, List.not_mem_nil, or_false, reduceCtorEq, false_or] at hf
  exact absurd hf.1 (by decide)

/-- `a.f` without an argument. -/
example (fp : FP) : request fp exTab (build exOps) (b "a.f") (.arr []) = some .noMatch :=
  C123_refused_partial fp exNm exTab exOps _ ex_name ex_funs 0 1 ex_last ex_last1 (by decide) _ (by simp) fun j hj => by
    rcases ex_lasts hj with rfl | rfl <;> simp [exTab, FitsAll]

/-- C123: an object that can be changed is set from a value that is not in an array as well, unless it is null; with an empty array it is left as
it is. -/
theorem C123_alone_partial (obs : Nat → Ob) (x y : List Rest.Op) (d : Str) (i : Nat) (w : Bool) (hd : Name d (x ++ .obj d i w :: y))
    (hy : ∀ op ∈ y, op.name ≠ d) (hk : (obs i).kind ≠ .enum) (hc : (obs i).cst = false) (hn : (obs i).null = false) (j : J)
    (hj : j ≠ .null) (ha : ∀ l, j ≠ .arr l) :
    requestOb obs (build (x ++ .obj d i w :: y)) d j = some (.set j) ∧
    requestOb obs (build (x ++ .obj d i w :: y)) d (.arr []) = some .same := by
  have he := C35_object x y d i w fun op ho h => absurd h (hy op ho)
  have e : assign false j = .set j := by cases j <;> simp_all [assign]
  have e' : assign false (.arr []) = .same := rfl
  simp only [requestOb, to_process hd he, give, hc, hn]
  cases h : (obs i).kind <;> simp_all

/-- C123: a const object, or what is pointed to by a pointer to const, is read but not changed. -/
theorem C123_const (obs : Nat → Ob) (x y : List Rest.Op) (d : Str) (i : Nat) (w : Bool) (hd : Name d (x ++ .obj d i w :: y))
    (hy : ∀ op ∈ y, op.name ≠ d) (hc : (obs i).cst = true) (hn : (obs i).null = false) (args : J) :
    (∀ j, requestOb obs (build (x ++ .obj d i w :: y)) d args ≠ some (.set j)) ∧
    requestOb obs (build (x ++ .obj d i w :: y)) d .null = some .same ∧
    requestOb obs (build (x ++ .obj d i w :: y)) d (.arr []) = some .same := by
  have he := C35_object x y d i w fun op ho h => absurd h (hy op ho)
  have e1 : assign true .null = .same := rfl
  have e2 : assign true (.arr []) = .same := rfl
  have e3 : ∀ j, assign true args ≠ .set j := by
    intro j
    unfold assign
    split <;> simp
  simp only [requestOb, to_process hd he, give, hc, hn]
  cases h : (obs i).kind
  · simpa [e1, e2] using e3
  · simpa [e1, e2] using e3
  · simpa [e1, e2] using e3
  · refine ⟨fun j => ?_, rfl, rfl⟩
    simp only [true_or, if_true]
    split <;> simp

/-- C123: an enumeration is not changed by a string that names no enumerator, by a value that is not a string, or without an argument; the first
two are errors if given in an array. -/
theorem C123_enum_refused (obs : Nat → Ob) (x y : List Rest.Op) (d : Str) (i : Nat) (w : Bool) (hd : Name d (x ++ .obj d i w :: y))
    (hy : ∀ op ∈ y, op.name ≠ d) (hk : (obs i).kind = .enum) (j : J) (hs : ∀ s, j = .str s → s ∉ (obs i).keys) (l : List J) :
    requestOb obs (build (x ++ .obj d i w :: y)) d (.arr (j :: l)) = some .throw ∧
    requestOb obs (build (x ++ .obj d i w :: y)) d (.arr []) = some .same ∧
    requestOb obs (build (x ++ .obj d i w :: y)) d .null = some .same := by
  have he := C35_object x y d i w fun op ho h => absurd h (hy op ho)
  simp only [requestOb, to_process hd he, give, hk]
  refine ⟨?_, trivial, trivial⟩
  cases j <;> simp_all

/-- An `int`, a constant one, and an enumeration, registered as `a.x`. -/
example : requestOb exOb (build exOps) (b "a.x") (.int 5) = some (.set (.int 5)) :=
  (C123_alone_partial exOb (exOps.take 2) (exOps.drop 3) (b "a.x") 0 false ⟨by decide, by decide, by decide⟩ (by decide) (by decide) rfl rfl (.int 5)
    (by simp) (by simp)).1

example : ∀ j, requestOb (fun _ => ⟨.object, b "int", [], true, false, []⟩) (build exOps) (b "a.x") (.int 5) ≠ some (.set j) :=
  (C123_const (fun _ => ⟨.object, b "int", [], true, false, []⟩) (exOps.take 2) (exOps.drop 3) (b "a.x") 0 false ⟨by decide, by decide, by decide⟩
    (by decide) rfl rfl (.int 5)).1

example : requestOb (fun _ => ⟨.enum, b "E", [], false, false, [b "red"]⟩) (build exOps) (b "a.x") (.arr [.str (b "blue")]) = some .throw :=
  (C123_enum_refused (fun _ => ⟨.enum, b "E", [], false, false, [b "red"]⟩) (exOps.take 2) (exOps.drop 3) (b "a.x") 0 false
    ⟨by decide, by decide, by decide⟩ (by decide) rfl (.str (b "blue")) (by intro s h; cases h; decide) []).1


/-- C123 fails for functions listed with parameters of different types between which a request cannot choose, such as `int` and `long`, or
`std::string` and `const char*`: values that all of them can take call none, and there is an error. -/
theorem C123_fails_alike {R : Type} (fp : FP) (nm : Par → Str) (tab : Nat → Meth R) (ops : List Rest.Op) (d : Str) (hd : Name d ops)
    (h : Funs nm tab ops d) (i k : Nat) (hi : Last nm tab ops d i) (hk : Last nm tab ops d k) (hik : i ≠ k) (l : List J) (hl : l.length ≤ 4000)
    (hs : ∀ j, Last nm tab ops d j → (tab j).ps.map Par.at' = (tab i).ps.map Par.at') (hf : FitsAll ((tab i).ps.map Par.at') l)
    (hp : (tab i).ps.length ≤ 4000) : request fp tab (build ops) d (.arr l) = some .ambiguous := by
  obtain ⟨e, he, hke⟩ := entry h
  have hm := mem_funs h
  rw [he] at hm
  have h1 : fnOf nm tab i ∈ funs (some e) := (hm _).2 ⟨i, rfl, hi⟩
  have h2 : fnOf nm tab k ∈ funs (some e) := (hm _).2 ⟨k, rfl, hk⟩
  simp only [request, to_process hd he]
  rcases hke with ⟨f, rfl⟩ | ⟨fs, rfl⟩
  · simp only [funs, List.mem_singleton] at h1 h2
    exact absurd (congrArg Fn.id (h1.trans h2.symm)) hik
  · simp only [funs] at h1 h2 hm
    have hsc : ∀ g ∈ fs, matchScore ((tab g.id).ps.map Par.at') (.arr l) = matchScore ((tab i).ps.map Par.at') (.arr l) := by
      intro g hg
      obtain ⟨j, rfl, hj⟩ := (hm g).1 hg
      show matchScore ((tab j).ps.map Par.at') _ = _
      rw [hs j hj]
    have hlt : matchScore ((tab i).ps.map Par.at') (.arr l) < maxScore := (C34_matchable_partial _ l (by simp; omega) (by simpa using hp)).2 hf
    have hne : fnOf nm tab i ≠ fnOf nm tab k := fun h => hik (congrArg Fn.id h)
    have : choose (fun f : Fn => matchScore ((tab f.id).ps.map Par.at') (.arr l)) fs = .ambiguous := by
      rw [C34_ambiguous]
      obtain ⟨a, c, rfl⟩ := List.append_of_mem h1
      rcases List.mem_append.1 h2 with hx | hx
      · obtain ⟨a', c', rfl⟩ := List.append_of_mem hx
        refine ⟨a', _, c', _, c, rfl, ?_, ?_, fun x hx => ?_⟩ <;>
          simp only [hsc _ h2, hsc _ h1]
        · exact hlt
        · rw [hsc x hx]; exact Nat.le_refl _
      · rcases List.mem_cons.1 hx with hx | hx
        · exact absurd hx.symm hne
        · obtain ⟨a', c', rfl⟩ := List.append_of_mem hx
          refine ⟨a, fnOf nm tab i, a', fnOf nm tab k, c', by simp, ?_, ?_, fun x hx => ?_⟩ <;>
            simp only [hsc _ h2, hsc _ h1]
          · exact hlt
          · rw [hsc x hx]; exact Nat.le_refl _
    simp only [this]

/-- `void f(int); void f(long);` -/
def C123.alikeTab : Nat → Meth Nat
  | 0 => ⟨true, false, false, false, b "void", [⟨.int 32 true, .val⟩], fun _ => 0⟩
  | _ => ⟨true, false, false, false, b "void", [⟨.int 64 true, .val⟩], fun _ => 1⟩

example (fp : FP) : let nm : Par → Str := fun p => if p.t = .int 32 true then b "int" else b "long"
    let ops : List Rest.Op := [.fn (b "f") (fnOf nm alikeTab 0), .fn (b "f") (fnOf nm alikeTab 1)]
    request fp alikeTab (build ops) (b "f") (.arr [.int 5]) = some .ambiguous := by
  rfl

end Verif.RestSig
