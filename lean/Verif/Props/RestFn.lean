import Verif.RestFn
import Verif.Props.RestOverload
import Verif.Props.RestCall
/-
C119: functions called through the REST interface with values.
-/
namespace Verif.RestFn
open Verif.Rest
open Verif.Rest.C34
open Verif.Json (J)

/-! ### Specification -/

/-- The values of a type. -/
inductive C119.Of : CT → V → Prop
  | bool (x : Bool) : Of .bool (.bool x)
  | signed (w : Nat) (i : Int) : 0 < w → -2 ^ (w - 1) ≤ i → i < 2 ^ (w - 1) → Of (.int w true) (.int i)
  | unsigned (w : Nat) (i : Int) : 0 ≤ i → i < 2 ^ w → Of (.int w false) (.int i)
  | chr (c : UInt8) : Of .chr (.chr c)
  | flt (r : Nat) : Of .flt (.flt r)
  | str (s : Str) : Of .str (.str s)
  | vec (t : CT) (l : List V) : (∀ v ∈ l, Of t v) → Of (.vec t) (.vec l)

/-- Values for parameters, one each. -/
inductive C119.Ofs : List CT → List V → Prop
  | nil : Ofs [] []
  | cons (t : CT) (v : V) (ts : List CT) (vs : List V) : C119.Of t v → Ofs ts vs → Ofs (t :: ts) (v :: vs)

/-- Sequences, also those inside, are not empty. -/
inductive C119.Filled : V → Prop
  | bool (x : Bool) : Filled (.bool x)
  | int (i : Int) : Filled (.int i)
  | chr (c : UInt8) : Filled (.chr c)
  | flt (r : Nat) : Filled (.flt r)
  | str (s : Str) : Filled (.str s)
  | vec (l : List V) : l ≠ [] → (∀ v ∈ l, Filled v) → Filled (.vec l)

/-- There are no characters in it. -/
def C119.NoChar : CT → Prop
  | .chr => False
  | .vec t => C119.NoChar t
  | _ => True

/-- Kinds of types: all integral types but bool are of one kind, and so are float and double. -/
def C119.kind : CT → Nat
  | .bool => 0
  | .int _ _ => 1
  | .chr => 1
  | .flt => 2
  | .str => 3
  | .vec _ => 4

/-- A value of the first type cannot be taken for one of the second: sequences for those of elements, single values also for elements. -/
def C119.apart : CT → CT → Prop
  | .vec t, .vec u => C119.apart t u
  | .vec _, _ => True
  | t, .vec u => C119.apart t u
  | t, u => C119.kind t ≠ C119.kind u

/-- Functions that can be told apart by arguments of the types of the first: by their number, or by one of them. -/
def C119.Apart (ts us : List CT) : Prop :=
  ts.length ≠ us.length ∨ ∃ (i : Nat) (t u : CT), ts[i]? = some t ∧ us[i]? = some u ∧ C119.apart t u

open C119

/-! ### Values are read back -/

private theorem two_pow {w : Nat} (h : 0 < w) : (2 : Int) ^ w = 2 * 2 ^ (w - 1) := by
  obtain ⟨k, rfl⟩ : ∃ k, w = k + 1 := ⟨w - 1, by omega⟩
  simp [Int.pow_succ, Int.mul_comm]

private theorem narrow_signed {w : Nat} {i : Int} (h : 0 < w) (h1 : -2 ^ (w - 1) ≤ i) (h2 : i < 2 ^ (w - 1)) : narrow w true i = i := by
  have hp := two_pow h
  have h0 : (0 : Int) < 2 ^ (w - 1) := Int.pow_pos (by decide)
  simp only [narrow, true_and]
  by_cases hi : 0 ≤ i
  · have : i % 2 ^ w = i := Int.emod_eq_of_lt hi (by omega)
    rw [this, if_neg (by omega)]
  · have : i % 2 ^ w = i + 2 ^ w := by
      rw [← Int.add_emod_right]
      exact Int.emod_eq_of_lt (by omega) (by omega)
    rw [this, if_pos (by omega)]
    omega

private theorem narrow_unsigned {w : Nat} {i : Int} (h1 : 0 ≤ i) (h2 : i < 2 ^ w) : narrow w false i = i := by
  simp [narrow, Int.emod_eq_of_lt h1 h2]

private theorem dec_enc (fp : FP) {t : CT} {v : V} (h : Of t v) : dec fp t (enc v) = some v := by
  induction h with
  | bool x => simp [enc, dec]
  | signed w i h h1 h2 => simp [enc, dec, narrow_signed h h1 h2]
  | unsigned w i h1 h2 => simp [enc, dec, narrow_unsigned h1 h2]
  | chr c => simp [enc, dec]
  | flt r => simp [enc, dec]
  | str s => simp [enc, dec]
  | vec t l _ ih =>
    have : decs fp t (l.map enc) = some l := by
      induction l with
      | nil => simp [decs]
      | cons v l ihl =>
        simp only [List.map_cons, decs]
        rw [ih v (by simp), ihl (fun x hx => by rename_i h; exact h x (by simp [hx])) fun x hx => ih x (by simp [hx])]
    simp [enc, dec, this]

theorem C119.ofs_len {ts : List CT} {vs : List V} (h : Ofs ts vs) : vs.length = ts.length := by
  induction h with
  | nil => rfl
  | cons _ _ _ _ _ _ ih => simp [ih]

private theorem ofs_get {ts : List CT} {vs : List V} (h : Ofs ts vs) : ∀ (i : Nat) (t : CT) (v : V), ts[i]? = some t → vs[i]? = some v → Of t v := by
  induction h with
  | nil => intro i t v h; simp at h
  | cons t v ts vs h1 _ ih =>
    intro i t' v' h2 h3
    cases i with
    | zero => simp at h2 h3; subst h2 h3; exact h1
    | succ i => simp at h2 h3; exact ih i t' v' h2 h3

theorem C119.callOne_ok {R : Type} (fp : FP) (f : Fun R) {vs : List V} (h : Ofs f.ts vs) :
    callOne fp f (.arr (vs.map enc)) = .res (f.run vs) := by
  obtain ⟨ws, hl, hw, hc⟩ := C36_json_partial dflt (dec fp) f.ts f.run (vs.map enc) (by
    intro i t j h1 h2
    simp only [List.getElem?_map, Option.map_eq_some_iff] at h2
    obtain ⟨v, hv, rfl⟩ := h2
    exact ⟨v, dec_enc fp (ofs_get h i t v h1 hv)⟩)
  have e : ws = vs := by
    apply List.ext_getElem?
    intro i
    by_cases hi : i < f.ts.length
    · have h1 : f.ts[i]? = some f.ts[i] := List.getElem?_eq_getElem hi
      have h2 : vs[i]? = some (vs[i]'(by rw [ofs_len h]; exact hi)) := List.getElem?_eq_getElem (by rw [ofs_len h]; exact hi)
      rw [hw i _ h1, List.getElem?_map, h2]
      simp only [Option.map_some, C36.arg]
      exact dec_enc fp (ofs_get h i _ _ h1 h2)
    · rw [List.getElem?_eq_none (by omega), List.getElem?_eq_none (by rw [ofs_len h]; omega)]
  simp only [callOne, callFunction, jsonBuffer, hc, e]

/-! ### Scores -/

private theorem matches_of {t : CT} {v : V} (h : Of t v) (hc : NoChar t) : matches' (atOf t) (enc v) = true := by
  induction h with
  | vec t l _ ih =>
    simp only [atOf, enc, matches', List.all_eq_true, List.mem_map]
    rintro j ⟨v, hv, rfl⟩
    exact ih v hv hc
  | chr c => exact absurd hc (by simp [NoChar])
  | _ => simp [atOf, enc, matches', isBool, isInt, isReal, isStr]

private theorem not_matches : ∀ (u t : CT) (v : V), Of t v → NoChar t → Filled v → apart t u → matches' (atOf u) (enc v) = false
  | .vec u, .vec t, .vec l, h, hc, hf, ha => by
    cases h with
    | vec _ _ hl =>
      cases hf with
      | vec _ hne hfl =>
        obtain ⟨v, l', rfl⟩ := List.exists_cons_of_ne_nil hne
        have := not_matches u t v (hl v (by simp)) hc (hfl v (by simp)) ha
        simp [atOf, enc, matches', this]
  | .vec u, .bool, v, h, hc, hf, ha => by
    have := not_matches u .bool v h hc hf (by simpa only [apart] using ha)
    cases h; simp only [atOf, enc, matches'] at this ⊢; exact this
  | .vec u, .int w s, v, h, hc, hf, ha => by
    have := not_matches u (.int w s) v h hc hf (by simpa only [apart] using ha)
    cases h <;> (simp only [atOf, enc, matches'] at this ⊢; exact this)
  | .vec u, .flt, v, h, hc, hf, ha => by
    have := not_matches u .flt v h hc hf (by simpa only [apart] using ha)
    cases h; simp only [atOf, enc, matches'] at this ⊢; exact this
  | .vec u, .str, v, h, hc, hf, ha => by
    have := not_matches u .str v h hc hf (by simpa only [apart] using ha)
    cases h; simp only [atOf, enc, matches'] at this ⊢; exact this
  | _, .chr, _, _, hc, _, _ => absurd hc (by simp [NoChar])
  | .bool, t, v, h, hc, hf, ha => by
    cases h <;> first
      | (simp [apart, kind] at ha; done)
      | (simp [NoChar] at hc; done)
      | simp [atOf, enc, matches', isBool]
  | .int w s, t, v, h, hc, hf, ha => by
    cases h <;> first
      | (simp [apart, kind] at ha; done)
      | (simp [NoChar] at hc; done)
      | simp [atOf, enc, matches', isInt]
  | .chr, t, v, h, hc, hf, ha => by
    cases h <;> first
      | (simp [apart, kind] at ha; done)
      | (simp [NoChar] at hc; done)
      | simp [atOf, enc, matches', isInt]
  | .flt, t, v, h, hc, hf, ha => by
    cases h <;> first
      | (simp [apart, kind] at ha; done)
      | (simp [NoChar] at hc; done)
      | simp [atOf, enc, matches', isReal]
  | .str, t, v, h, hc, hf, ha => by
    cases h <;> first
      | (simp [apart, kind] at ha; done)
      | (simp [NoChar] at hc; done)
      | simp [atOf, enc, matches', isStr]

theorem C119.fits_of {ts : List CT} {vs : List V} (h : Ofs ts vs) (hc : ∀ t ∈ ts, NoChar t) :
    FitsAll (ts.map atOf) (vs.map enc) ∧ converted (ts.map atOf) (vs.map enc) = 0 := by
  induction h with
  | nil => simp [FitsAll, converted]
  | cons t v ts vs h1 _ ih =>
    have hm := matches_of h1 (hc t (by simp))
    obtain ⟨i1, i2⟩ := ih fun t ht => hc t (by simp [ht])
    simp only [List.map_cons, FitsAll, converted, hm, if_true, i2]
    exact ⟨⟨.inl hm, i1⟩, by simp⟩

private theorem converted_pos : ∀ (us : List AT) (l : List J) (i : Nat) (u : AT) (j : J), us[i]? = some u → l[i]? = some j →
    matches' u j = false → converted us l ≠ 0
  | [], _, _, _, _, h, _, _ => by simp at h
  | _ :: _, [], _, _, _, _, h, _ => by simp at h
  | u :: us, j :: l, 0, _, _, h1, h2, h3 => by
    simp at h1 h2; subst h1 h2
    simp [converted, h3]
  | u :: us, j :: l, i + 1, u', j', h1, h2, h3 => by
    simp at h1 h2
    have := converted_pos us l i u' j' h1 h2 h3
    simp only [converted]; omega

private theorem fits_len : ∀ (ts : List AT) (l : List J), FitsAll ts l → ts.length ≤ l.length
  | [], _, _ => by simp
  | _ :: _, [], h => by simp [FitsAll] at h
  | _ :: ts, _ :: l, h => by simp only [FitsAll] at h; simpa using fits_len ts l h.2

theorem C119.score_pos {ts us : List CT} {vs : List V} (h : Ofs ts vs) (hc : ∀ t ∈ ts, NoChar t) (hf : ∀ v ∈ vs, Filled v)
    (ha : Apart ts us) (h1 : ts.length ≤ 4000) (h2 : us.length ≤ 4000) : 0 < matchScore (us.map atOf) (.arr (vs.map enc)) := by
  have hlen := ofs_len h
  obtain ⟨k1, k2⟩ := fits_of h hc
  by_cases hu : FitsAll (us.map atOf) (vs.map enc)
  · refine (C34_exact (ts.map atOf) (us.map atOf) (vs.map enc) k1 k2 (by simp [hlen])).2 hu (by simp; omega) ?_
    have hle := fits_len _ _ hu
    simp only [List.length_map] at hle ⊢
    rcases ha with ha | ⟨i, t, u, g1, g2, g3⟩
    · exact .inr (by omega)
    · left
      have hi : i < vs.length := by
        have := (List.getElem?_eq_some_iff.1 g1).1; omega
      have g4 : vs[i]? = some vs[i] := List.getElem?_eq_getElem hi
      exact converted_pos _ _ i (atOf u) (enc vs[i]) (by simp [g2]) (by simp [hi])
        (not_matches u t vs[i] (ofs_get h i t _ g1 g4) (hc t (List.mem_of_getElem? g1)) (hf _ (List.getElem_mem hi)) g3)
  · have h3 : ¬ matchScore (us.map atOf) (.arr (vs.map enc)) < maxScore := fun h => hu ((C34_matchable_partial (us.map atOf) (vs.map enc) (by simp; omega) (by simp; omega)).1 h)
    have : maxScore = 1000000 := rfl
    omega

/-! ### C119 -/

/-- C119, partial: of overloaded functions that can be told apart, the one whose parameters the values are of is called, with these values. -/
theorem C119_called_partial {R : Type} (fp : FP) (as cs : List (Fun R)) (f : Fun R) (vs : List V) (h : Ofs f.ts vs)
    (hc : ∀ t ∈ f.ts, NoChar t) (hf : ∀ v ∈ vs, Filled v) (ha : ∀ g ∈ as ++ cs, Apart f.ts g.ts)
    (hn : ∀ g ∈ as ++ f :: cs, g.ts.length ≤ 4000) : request fp (as ++ f :: cs) (.arr (vs.map enc)) = .res (f.run vs) := by
  have hlen := ofs_len h
  obtain ⟨k1, k2⟩ := fits_of h hc
  have h0 : matchScore (f.ts.map atOf) (.arr (vs.map enc)) = 0 :=
    (C34_exact (f.ts.map atOf) [] (vs.map enc) k1 k2 (by simp [hlen])).1
  have hch : choose (fun f : Fun R => matchScore (f.ts.map atOf) (.arr (vs.map enc))) (as ++ f :: cs) = .call f := by
    rw [C34_call]
    refine ⟨as, cs, rfl, by rw [h0]; decide, fun g hg => ?_⟩
    rw [h0]
    exact score_pos h hc hf (ha g hg) (hn f (by simp)) (hn g (by
      rcases List.mem_append.1 hg with hg | hg <;> simp [hg]))
  unfold request
  split
  · rename_i heq
    have : as = [] ∧ cs = [] := by
      cases as with
      | nil => simp at heq; exact ⟨rfl, heq.2⟩
      | cons a as => simp at heq
    obtain ⟨rfl, rfl⟩ := this
    simp at heq
    subst heq
    exact callOne_ok fp f h
  · rw [hch]
    exact callOne_ok fp f h

/-- C119, partial: a function that is not overloaded is called with any values of its parameters. -/
theorem C119_alone_partial {R : Type} (fp : FP) (f : Fun R) (vs : List V) (h : Ofs f.ts vs) :
    request fp [f] (.arr (vs.map enc)) = .res (f.run vs) := callOne_ok fp f h

private theorem score_single (ts : List AT) {j : J} (h : ∀ l, j ≠ .arr l) (h0 : j ≠ .null) : matchScore ts j = matchScore ts (.arr [j]) := by
  match ts with
  | [] => exact (C34_single .bool j h h0).2.2
  | [t] => exact (C34_single t j h h0).1
  | [t, u] =>
    have : matchScore [t, u] j = maxScore := by cases j <;> simp_all [matchScore]
    rw [this]; simp [matchScore, scoreN]
  | t :: u :: x :: ts =>
    have : matchScore (t :: u :: x :: ts) j = maxScore := by cases j <;> simp_all [matchScore]
    rw [this]
    simp only [matchScore]
    obtain ⟨a, b, c, r, e⟩ : ∃ a b c r, (t :: u :: x :: ts).reverse = a :: b :: c :: r := by
      have hl : (t :: u :: x :: ts).reverse.length = ts.length + 3 := by simp
      match hq : (t :: u :: x :: ts).reverse with
      | a :: b :: c :: r => exact ⟨a, b, c, r, rfl⟩
      | [] | [_] | [_, _] => rw [hq] at hl; simp at hl
    rw [e]
    simp [scoreN]

/-- C119, partial: a single argument that is not a sequence need not be put into an array. -/
theorem C119_single_partial {R : Type} (fp : FP) (fs : List (Fun R)) (t : CT) (v : V) (h : Of t v) (hv : ∀ u, t ≠ .vec u) :
    request fp fs (enc v) = request fp fs (.arr [enc v]) := by
  have h1 : ∀ l, enc v ≠ .arr l := by cases h <;> simp_all [enc]
  have h2 : enc v ≠ .null := by cases h <;> simp_all [enc]
  have e1 : ∀ f : Fun R, callOne fp f (enc v) = callOne fp f (.arr [enc v]) := by
    intro f
    simp only [callOne]
    rw [(C36_single dflt (dec fp) false f.ts f.run (enc v) h1 h2).1]
  have e2 : ∀ f : Fun R, matchScore (f.ts.map atOf) (enc v) = matchScore (f.ts.map atOf) (.arr [enc v]) :=
    fun f => score_single _ h1 h2
  unfold request
  split
  · exact e1 _
  · simp only [e2, e1]

/-- f(int), f(double), f(std::string), f(std::vector<int>, bool). -/
private def exFs : List (Fun Nat) :=
  [⟨[.int 32 true], fun _ => 1⟩, ⟨[.flt], fun _ => 2⟩, ⟨[.str], fun _ => 3⟩, ⟨[.vec (.int 32 true), .bool], List.length⟩]

example (fp : FP) : request fp exFs (.arr [.arr [.int 1, .int 2], .bool true]) = .res 2 := by
  simpa [exFs, enc] using C119_called_partial fp (exFs.take 3) [] ⟨[.vec (.int 32 true), .bool], List.length⟩ [.vec [.int 1, .int 2], .bool true]
    (.cons _ _ _ _ (.vec _ _ (by
      intro v hv; simp at hv
      rcases hv with rfl | rfl <;> exact .signed _ _ (by decide) (by decide) (by decide))) (.cons _ _ _ _ (.bool _) .nil))
    (by intro t ht; simp at ht; rcases ht with rfl | rfl <;> simp [NoChar])
    (by
      intro v hv; simp at hv
      rcases hv with rfl | rfl
      · exact .vec _ (by simp) (by intro v hv; simp at hv; rcases hv with rfl | rfl <;> exact .int _)
      · exact .bool _)
    (by intro g hg; simp [exFs] at hg; rcases hg with rfl | rfl | rfl <;> exact .inl (by simp))
    (by intro g hg; simp [exFs] at hg; rcases hg with rfl | rfl | rfl | rfl <;> simp)

example (fp : FP) : request fp exFs (.arr [.real 7]) = .res 2 := by
  simpa [exFs, enc] using C119_called_partial fp (exFs.take 1) (exFs.drop 2) ⟨[.flt], fun _ => 2⟩ [.flt 7] (.cons _ _ _ _ (.flt _) .nil)
    (by intro t ht; simp at ht; subst ht; simp [NoChar]) (by intro v hv; simp at hv; subst hv; exact .flt _)
    (by
      intro g hg; simp [exFs] at hg
      rcases hg with rfl | rfl | rfl
      · exact .inr ⟨0, .flt, .int 32 true, rfl, rfl, by simp [apart, kind]⟩
      · exact .inr ⟨0, .flt, .str, rfl, rfl, by simp [apart, kind]⟩
      · exact .inl (by simp))
    (by intro g hg; simp [exFs] at hg; rcases hg with rfl | rfl | rfl | rfl <;> simp)

/-! ### What fails -/

private theorem two_ambiguous {R : Type} (fp : FP) (f g : Fun R) (args : J) (s : Nat) (hf : matchScore (f.ts.map atOf) args = s)
    (hg : matchScore (g.ts.map atOf) args = s) (hs : s < maxScore) : request fp [f, g] args = .ambiguous := by
  have : choose (fun f : Fun R => matchScore (f.ts.map atOf) args) [f, g] = .ambiguous := by
    rw [C34_ambiguous]
    refine ⟨[], f, [], g, [], rfl, by rw [hf]; exact hs, by rw [hf, hg], ?_⟩
    intro x hx
    simp at hx
    rcases hx with rfl | rfl
    · exact Nat.le_refl _
    · rw [hf, hg]; exact Nat.le_refl _
  simp only [request, this]

/-- C119 fails for overloads that differ in the width or sign of integers only: ambiguous for all values. -/
theorem C119_fails_width {R : Type} (fp : FP) (f g : Fun R) (vs : List V) (h : Ofs f.ts vs) (hc : ∀ t ∈ f.ts, NoChar t)
    (hg : g.ts.map atOf = f.ts.map atOf) : request fp [f, g] (.arr (vs.map enc)) = .ambiguous := by
  obtain ⟨k1, k2⟩ := fits_of h hc
  have h0 : matchScore (f.ts.map atOf) (.arr (vs.map enc)) = 0 :=
    (C34_exact (f.ts.map atOf) [] (vs.map enc) k1 k2 (by simp [ofs_len h])).1
  exact two_ambiguous fp f g _ 0 h0 (by rw [hg, h0]) (by decide)

example : [CT.int 64 false].map atOf = [CT.int 32 true].map atOf := rfl

/-- C119 fails for f(T) and f(sequence of T): a T is taken for both. -/
theorem C119_fails_element {R : Type} (fp : FP) (f g : Fun R) (t : CT) (v : V) (hf : f.ts = [t]) (hg : g.ts = [.vec t])
    (h : Of t v) (hc : NoChar t) (hv : ∀ u, t ≠ .vec u) : request fp [f, g] (.arr [enc v]) = .ambiguous := by
  have hm := matches_of h hc
  have h1 : ∀ l, enc v ≠ .arr l := by cases h <;> simp_all [enc]
  have hm2 : matches' (.cont (atOf t)) (enc v) = true := by
    rw [← hm]
    cases he : enc v <;> simp_all [matches']
  exact two_ambiguous fp f g _ 0 (by simp [hf, matchScore, argScore, hm, u32]) (by simp [hg, atOf, matchScore, argScore, hm2, u32]) (by decide)

/-- C119 fails for empty sequences: they are taken for those of any type. -/
theorem C119_fails_empty {R : Type} (fp : FP) (f g : Fun R) (t u : CT) (hf : f.ts = [.vec t]) (hg : g.ts = [.vec u]) :
    request fp [f, g] (.arr [enc (.vec [])]) = .ambiguous :=
  two_ambiguous fp f g _ 0 (by simp [hf, atOf, matchScore, argScore, matches', enc, u32]) (by simp [hg, atOf, matchScore, argScore, matches', enc, u32])
    (by decide)

/-- C119 fails for characters, which are written as strings, but looked for as numbers: of overloaded functions the one with a string is called
instead, and without one, none. -/
theorem C119_fails_char {R : Type} (fp : FP) (f g : Fun R) (c : UInt8) (u : CT) (hf : f.ts = [.chr]) (hg : g.ts = [u]) :
    (u = .str → request fp [f, g] (.arr [enc (.chr c)]) = .res (g.run [.str [c]])) ∧
    (u = .bool ∨ u = .flt ∨ (∃ w s, u = .int w s) → request fp [f, g] (.arr [enc (.chr c)]) = .noMatch) := by
  constructor
  · rintro rfl
    have : choose (fun f : Fun R => matchScore (f.ts.map atOf) (.arr [enc (.chr c)])) [f, g] = .call g := by
      rw [C34_call]
      refine ⟨[f], [], rfl, ?_, ?_⟩
      · simp [hg, atOf, matchScore, argScore, matches', enc, u32, isStr, maxScore]
      · intro x hx
        simp at hx; subst hx
        simp [hf, hg, atOf, matchScore, argScore, matches', partly, enc, u32, isStr, isInt, maxScore]
    simp only [request, this]
    have := callOne_ok fp g (vs := [.str [c]]) (by rw [hg]; exact .cons _ _ _ _ (.str _) .nil)
    simpa [enc] using this
  · intro hu
    have : choose (fun f : Fun R => matchScore (f.ts.map atOf) (.arr [enc (.chr c)])) [f, g] = .noMatch := by
      rw [C34_no_match _ _ (by simp)]
      intro x hx
      simp at hx
      rcases hx with rfl | rfl
      · simp [hf, atOf, matchScore, argScore, matches', partly, enc, u32, isInt, maxScore]
      · rcases hu with rfl | rfl | ⟨w, s, rfl⟩ <;>
          simp [hg, atOf, matchScore, argScore, matches', partly, enc, u32, isInt, isBool, isReal, isNull, maxScore]
    simp only [request, this]

/-- C119 fails for a single value given for a sequence: it is accepted as a sequence of one element, but the function gets an empty one. -/
theorem C119_fails_one {R : Type} (fp : FP) (f g : Fun R) (t u : CT) (v : V) (hf : f.ts = [.vec t]) (hg : g.ts = [u]) (h : Of t v)
    (hc : NoChar t) (hv : ∀ x, t ≠ .vec x) (hu : kind u ≠ kind t ∧ kind u ≠ 2 ∧ kind u ≠ 4) :
    request fp [f, g] (.arr [enc v]) = .res (f.run [.vec []]) := by
  have hm := matches_of h hc
  have h1 : ∀ l, enc v ≠ .arr l := by cases h <;> simp_all [enc]
  have hm2 : matches' (.cont (atOf t)) (enc v) = true := by
    rw [← hm]
    cases he : enc v <;> simp_all [matches']
  have hn : matches' (atOf u) (enc v) = false ∧ partly (atOf u) (enc v) = false := by
    cases u <;> cases h <;> simp_all [kind, atOf, enc, matches', partly, isBool, isInt, isReal, isStr, NoChar]
  have : choose (fun f : Fun R => matchScore (f.ts.map atOf) (.arr [enc v])) [f, g] = .call f := by
    rw [C34_call]
    refine ⟨[], [g], rfl, ?_, ?_⟩
    · simp [hf, atOf, matchScore, argScore, hm2, u32, maxScore]
    · intro x hx
      simp at hx; subst hx
      simp [hf, hg, atOf, matchScore, argScore, hm2, hn, u32, maxScore]
  simp only [request, this]
  have hd : dec fp (.vec t) (enc v) = some (.vec []) := by
    cases he : enc v <;> simp_all [dec]
  simp only [callOne, callFunction, jsonBuffer, hf, callOnBuffer, jsonRead, hd, curryFirst]

/-- C119 fails for a sequence given by itself as the only argument: its elements are taken for the arguments, and the function gets an empty
one. -/
theorem C119_fails_bare {R : Type} (fp : FP) (f : Fun R) (t : CT) (v : V) (l : List V) (hf : f.ts = [.vec t]) (h : Of t v) (hv : ∀ x, t ≠ .vec x) :
    request fp [f] (enc (.vec (v :: l))) = .res (f.run [.vec []]) := by
  have h1 : ∀ l, enc v ≠ .arr l := by cases h <;> simp_all [enc]
  have hd : dec fp (.vec t) (enc v) = some (.vec []) := by
    cases he : enc v <;> simp_all [dec]
  simp only [request, callOne, callFunction, enc, List.map_cons, jsonBuffer, hf, callOnBuffer, jsonRead, hd, curryFirst]

/-- C119: arguments given otherwise than their type is written: integers for floating point numbers are converted, null is NaN, an empty string
for a character is the character 0; a string for a number, or a number for a string, is refused. -/
theorem C119_converted {R : Type} (fp : FP) (f : Fun R) :
    (f.ts = [.flt] → (∀ i, request fp [f] (.arr [.int i]) = .res (f.run [.flt (fp.ofInt i)])) ∧
      request fp [f] (.arr [.null]) = .res (f.run [.flt fp.nan]) ∧ ∀ s, request fp [f] (.arr [.str s]) = .refused) ∧
    (f.ts = [.chr] → request fp [f] (.arr [.str []]) = .res (f.run [.chr 0]) ∧
      (∀ c s, request fp [f] (.arr [.str (c :: s)]) = .res (f.run [.chr c])) ∧ ∀ i, request fp [f] (.arr [.int i]) = .refused) ∧
    (f.ts = [.str] → ∀ i, request fp [f] (.arr [.int i]) = .refused) := by
  refine ⟨fun h => ⟨fun i => ?_, ?_, fun s => ?_⟩, fun h => ⟨?_, fun c s => ?_, fun i => ?_⟩, fun h i => ?_⟩ <;>
    simp [request, callOne, callFunction, jsonBuffer, h, callOnBuffer, jsonRead, dec, curryFirst]

end Verif.RestFn
