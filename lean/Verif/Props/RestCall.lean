import Verif.RestCall
import Verif.Props.Codec
/-
C36: functions called from buffers.
-/
namespace Verif.Rest
open Verif.Json (J)

/-! ### JSON -/

/-- The argument a parameter gets: the value in its position, or if there is none a default one. -/
def C36.arg {T V : Type} (dflt : T → V) (dec : T → J → Option V) (t : T) : Option J → Option V
  | some j => dec t j
  | none => some (dflt t)

open C36

/-- When the arguments can be read, the function is applied to them in positional order, with defaults
for those missing, and exactly as many as it has parameters are used. -/
theorem C36_json_partial {T V R : Type} (dflt : T → V) (dec : T → J → Option V) (ts : List T) (f : List V → R)
    (l : List J) (h : ∀ (i : Nat) (t : T) (j : J), ts[i]? = some t → l[i]? = some j → ∃ v, dec t j = some v) :
    ∃ vs : List V, vs.length = ts.length ∧
      (∀ (i : Nat) (t : T), ts[i]? = some t → vs[i]? = arg dflt dec t l[i]?) ∧
      callOnBuffer (jsonRead dflt dec) ts f l = .ok (f vs) (l.drop ts.length) := by
  induction ts generalizing f l with
  | nil => exact ⟨[], rfl, by simp, by simp [callOnBuffer]⟩
  | cons t ts ih =>
    cases l with
    | nil =>
      obtain ⟨vs, h1, h2, h3⟩ := ih (curryFirst f (dflt t)) [] (by simp)
      refine ⟨dflt t :: vs, by simp [h1], ?_, ?_⟩
      · intro i t' hi
        cases i with
        | zero => simp at hi; simp [arg, hi]
        | succ i => simpa [arg] using h2 i t' (by simpa using hi)
      · simp only [callOnBuffer, jsonRead, h3]
        simp [curryFirst]
    | cons j l =>
      obtain ⟨v, hv⟩ := h 0 t j rfl rfl
      obtain ⟨vs, h1, h2, h3⟩ := ih (curryFirst f v) l (fun i t' j' a c => h (i + 1) t' j' a c)
      refine ⟨v :: vs, by simp [h1], ?_, ?_⟩
      · intro i t' hi
        cases i with
        | zero => simp at hi; subst hi; simp [arg, hv]
        | succ i => simpa using h2 i t' (by simpa using hi)
      · simp only [callOnBuffer, jsonRead, hv, h3]
        simp [curryFirst]

/-- When one cannot be read, the function is not called. -/
theorem C36_unreadable {T V R : Type} (dflt : T → V) (dec : T → J → Option V) (ref : Bool) (ts : List T)
    (f : List V → R) (rest : Str) (args : J) (i : Nat) (t : T) (j : J) (h1 : ts[i]? = some t)
    (h2 : (jsonBuffer args)[i]? = some j) (h3 : dec t j = none) :
    callFunction dflt dec ref ts f rest args = none := by
  have key : ∀ (i : Nat) (ts : List T) (f : List V → R) (l : List J), ts[i]? = some t → l[i]? = some j →
      ∃ l', callOnBuffer (jsonRead dflt dec) ts f l = .throw () l' := by
    intro i
    induction i with
    | zero =>
      intro ts f l h1 h2
      cases ts with
      | nil => simp at h1
      | cons t' ts =>
        cases l with
        | nil => simp at h2
        | cons j' l =>
          simp at h1 h2
          subst h1; subst h2
          exact ⟨l, by simp [callOnBuffer, jsonRead, h3]⟩
    | succ i ih =>
      intro ts f l h1 h2
      cases ts with
      | nil => simp at h1
      | cons t' ts =>
        cases l with
        | nil => simp at h2
        | cons j' l =>
          simp at h1 h2
          cases hd : dec t' j' with
          | none => exact ⟨l, by simp [callOnBuffer, jsonRead, hd]⟩
          | some v =>
            obtain ⟨l', hl⟩ := ih ts (curryFirst f v) l h1 h2
            exact ⟨l', by simp [callOnBuffer, jsonRead, hd, hl]⟩
  obtain ⟨l', hl⟩ := key i ts f _ h1 h2
  simp [callFunction, hl]

/-- At the end of the path, the first argument after those of the function's parameters is assigned to
the object it returns a reference to; if there is none, or a value is returned, nothing is done to it. -/
theorem C36_leftover {T V R : Type} (dflt : T → V) (dec : T → J → Option V) (ref : Bool) (ts : List T)
    (f : List V → R) (l : List J) (r : R) (th : Then)
    (h : callFunction dflt dec ref ts f [] (.arr l) = some (r, th)) :
    (∀ j, l[ts.length]? = some j → ref = true → th = .assign j) ∧
    (l.length ≤ ts.length ∨ ref = false → th = .ret) := by
  simp only [callFunction] at h
  split at h
  · rename_i r' _ _
    simp only [Option.some.injEq, Prod.mk.injEq] at h
    obtain ⟨_, rfl⟩ := h
    constructor
    · intro j hj hr
      have : ts.length < l.length := by
        have := List.getElem?_eq_some_iff.1 hj
        exact this.1
      have e : l.getD ts.length .null = j := by rw [List.getD, hj]; rfl
      simp only [hr, if_true, after, if_pos this, e]
    · rintro (hl | hr)
      · cases ref
        · simp [afterValue]
        · simp only [if_true, after, if_neg (Nat.not_lt.2 hl)]
      · simp [hr, afterValue]
  · cases h

/-- A single argument that is not an array counts as an array of one; none as an empty one. -/
theorem C36_single {T V R : Type} (dflt : T → V) (dec : T → J → Option V) (ref : Bool) (ts : List T)
    (f : List V → R) (j : J) (h : ∀ l, j ≠ .arr l) (h0 : j ≠ .null) :
    callFunction dflt dec ref ts f [] j = callFunction dflt dec ref ts f [] (.arr [j]) ∧
    callFunction dflt dec ref ts f [] .null = callFunction dflt dec ref ts f [] (.arr []) := by
  refine ⟨?_, ?_⟩
  · have e : jsonBuffer j = jsonBuffer (.arr [j]) := by
      cases j <;> simp_all [jsonBuffer]
    have e2 : after ts.length [] j = after ts.length [] (.arr [j]) := by
      cases j <;> simp_all [after] <;> cases ts <;> simp
    simp only [callFunction, e, e2, afterValue, if_true]
  · simp [callFunction, jsonBuffer, after, afterValue]

private def exDec : Unit → J → Option Int | _, .int i => some i | _, _ => none

example : ∃ vs : List Int, vs.length = 3 ∧
    (∀ (i : Nat) (t : Unit), [(), (), ()][i]? = some t →
      vs[i]? = arg (fun _ => 0) exDec t [J.int 1, J.int 2][i]?) ∧
    callOnBuffer (jsonRead (fun _ => 0) exDec) [(), (), ()] id [.int 1, .int 2] = .ok vs [] :=
  C36_json_partial (fun _ => 0) exDec [(), (), ()] id [.int 1, .int 2] (by
    intro i t j _ h
    match i, h with
    | 0, h => simp at h; exact ⟨1, by simp [← h, exDec]⟩
    | 1, h => simp at h; exact ⟨2, by simp [← h, exDec]⟩
    | n + 2, h => simp at h)

/-- With more path to go, the arguments the function has had are passed on again: `f.x` with the one
argument 5 calls `f(5)`, and then sets the member `x` of the result to 5. -/
theorem C36_fails_member : callFunction (fun _ => 0) exDec true [()] id (b ".x") (.arr [.int 5]) =
    some ([5], .process (b ".x") (.arr [.int 5])) := rfl

/-! ### Binary -/

private theorem packArgs_appends (al : Alloc) (hok : al.ok = true) (lim : Nat) : ∀ is : List (Ty × Val),
    (∀ i ∈ is, WF lim i.1 ∧ HasType lim i.1 i.2) →
    Appends (packArgs al (is.map (·.1)) (is.map (·.2))) (is.flatMap fun i => encode i.1 i.2)
  | [], _ => Appends.pure
  | i :: is, h => by
    rw [List.flatMap_cons]
    have hi := h i (by simp)
    exact Appends.bind (packs al hok lim _ _ hi.1 hi.2)
      (packArgs_appends al hok lim is fun j hj => h j (by simp [hj]))

private theorem call_reads {R : Type} (lim : Nat) (hlim : lim < 2 ^ 63) : ∀ (is : List (Ty × Val)) (f : List Val → R),
    (∀ i ∈ is, WF lim i.1 ∧ HasType lim i.1 i.2 ∧ Plain i.1) → ∀ (bf : Buf), Good bf →
    ∀ r, bf.rest = (is.flatMap fun i => encode i.1 i.2) ++ r →
    callOnBuffer (packRead lim) (is.map (·.1)) f bf =
      .ok (f (is.map (·.2))) (bf.adv (is.flatMap fun i => encode i.1 i.2).length)
  | [], f, _, bf, _, r, _ => by simp [callOnBuffer, Buf.adv]
  | i :: is, f, h, bf, hg, r, hr => by
    have hi := h i (by simp)
    rw [List.flatMap_cons, List.append_assoc] at hr
    have h1 := (reads_both lim hlim i.1 hi.1).1 (dflt i.1) i.2 (shape_dflt _) hi.2.1 bf hg _ hr
    rw [restore_plain lim i.1 _ i.2 hi.2.2 (shape_dflt _) hi.2.1] at h1
    have hg' := good_adv hg hr
    have hr' : (bf.adv (encode i.1 i.2).length).rest = (is.flatMap fun i => encode i.1 i.2) ++ r := by
      have : (bf.adv (encode i.1 i.2).length).rest = bf.rest.drop (encode i.1 i.2).length := by
        simp [Buf.rest, Buf.adv, Buf.content, Buf.mem]
      rw [this, hr, List.drop_left]
    have h2 := call_reads lim hlim is (curryFirst f i.2) (fun j hj => h j (by simp [hj])) _ hg' r hr'
    simp only [List.map_cons, callOnBuffer, packRead, h1, h2, List.flatMap_cons, List.length_append]
    simp [curryFirst, Buf.adv, Nat.add_assoc]

/-- Packing the arguments of two calls one after the other and then calling both from the buffer is the
same as calling them directly, each with its own arguments; then nothing is left to read. -/
theorem C36_binary_partial {R S : Type} (al : Alloc) (hok : al.ok = true) (lim : Nat) (hlim : lim < 2 ^ 63)
    (is js : List (Ty × Val)) (f : List Val → R) (g : List Val → S)
    (h : ∀ i ∈ is ++ js, WF lim i.1 ∧ HasType lim i.1 i.2 ∧ Plain i.1) (bf : Buf) (hb : AtEnd bf)
    (hsz : bf.size + ((is ++ js).flatMap fun i => encode i.1 i.2).length < 2 ^ 63) :
    ∃ b1 b2 b3 b4, packArgs al (is.map (·.1)) (is.map (·.2)) bf = (.ok (), b1) ∧
      packArgs al (js.map (·.1)) (js.map (·.2)) b1 = (.ok (), b2) ∧
      callOnBuffer (packRead lim) (is.map (·.1)) f b2 = .ok (f (is.map (·.2))) b3 ∧
      callOnBuffer (packRead lim) (js.map (·.1)) g b3 = .ok (g (js.map (·.2))) b4 ∧
      b4.toBool = false := by
  have hs : ((is ++ js).flatMap fun i => encode i.1 i.2).length =
      (is.flatMap fun i => encode i.1 i.2).length + (js.flatMap fun i => encode i.1 i.2).length := by
    rw [List.flatMap_append, List.length_append]
  obtain ⟨b1, e1, c1, p1, s1, i1⟩ := packArgs_appends al hok lim is
    (fun i hi => ⟨(h i (by simp [hi])).1, (h i (by simp [hi])).2.1⟩) bf hb.inv (by omega)
  obtain ⟨b2, e2, c2, p2, s2, i2⟩ := packArgs_appends al hok lim js
    (fun i hi => ⟨(h i (by simp [hi])).1, (h i (by simp [hi])).2.1⟩) b1 i1 (by omega)
  have hr : b2.rest = (is.flatMap fun i => encode i.1 i.2) ++ ((js.flatMap fun i => encode i.1 i.2) ++ []) := by
    rw [rest_of_append hb (b1 := b2) (by rw [c2, c1, List.append_assoc]) (by omega), List.append_nil]
  have hp := hb.pos
  have hg : Good b2 := ⟨i2, by omega, by omega⟩
  have hc := call_reads lim hlim is f (fun i hi => h i (by simp [hi])) b2 hg _ hr
  have hg' := good_adv hg hr
  have hr' : (b2.adv (is.flatMap fun i => encode i.1 i.2).length).rest =
      (js.flatMap fun i => encode i.1 i.2) ++ [] := by
    have : (b2.adv (is.flatMap fun i => encode i.1 i.2).length).rest =
        b2.rest.drop (is.flatMap fun i => encode i.1 i.2).length := by
      simp [Buf.rest, Buf.adv, Buf.content, Buf.mem]
    rw [this, hr, List.drop_left]
  have hc' := call_reads lim hlim js g (fun i hi => h i (by simp [hi])) _ hg' _ hr'
  refine ⟨b1, b2, _, _, e1, e2, hc, hc', ?_⟩
  have h0 : b2.pos = bf.size := by omega
  simp [Buf.toBool, Buf.adv, h0, s2, s1]

example : ∃ b1 b2 b3 b4, packArgs ⟨true, fun _ => 7⟩ [.prim 4, .str 1] [.raw [1, 2, 3, 4], .raw [97]] Buf.fresh = (.ok (), b1) ∧
    packArgs ⟨true, fun _ => 7⟩ [.prim 2] [.raw [5, 6]] b1 = (.ok (), b2) ∧
    callOnBuffer (packRead 1000) [.prim 4, .str 1] id b2 = .ok [.raw [1, 2, 3, 4], .raw [97]] b3 ∧
    callOnBuffer (packRead 1000) [.prim 2] id b3 = .ok [.raw [5, 6]] b4 ∧ b4.toBool = false :=
  C36_binary_partial ⟨true, fun _ => 7⟩ rfl 1000 (by decide) [(.prim 4, .raw [1, 2, 3, 4]), (.str 1, .raw [97])]
    [(.prim 2, .raw [5, 6])] id id (by
      intro i hi
      simp at hi
      rcases hi with rfl | rfl | rfl <;> simp [WF, HasType, Plain]) Buf.fresh ⟨Buf.inv_fresh, rfl⟩ (by decide)

end Verif.Rest
