import Verif.PyVal
import Verif.Props.EnumKeys
/-
C116: values handed to Python and taken back.
-/
namespace Verif.PyVal
open Verif.EnumKeys Verif.Python

/-! ### Specification -/

/-- The Python object that stands for a C++ value: a bool for a bool, the same number for a number, the same text for a text, a
text of one character for a character, the name declared last for an enumerator, a list of such for a sequence. -/
inductive C116.Means (utf8 : Str → Bool) : Ty → V → PyT → Prop
  | bool (b : Bool) : Means utf8 .bool (.bool b) (.bool b)
  | int (u : Under) (i : Int) : InRange u i → Means utf8 (.int u) (.int i) (.int i)
  | real (r : Nat) : Means utf8 .real (.real r) (.float r)
  | str (s : Str) : utf8 s = true → Means utf8 .str (.str s) (.str s)
  | char (c : UInt8) : utf8 [c] = true → Means utf8 .char (.char c) (.str [c])
  | enm (u : Under) (decl : List (Str × Int)) (v : Int) (n : Str) : Narrow u → Decl u decl → lastName v decl = some n →
      utf8 n = true → 0 ∉ n → Means utf8 (.enm u (table decl)) (.enm v) (.str n)
  | seq (t : Ty) (z : List (V × PyT)) : (∀ e ∈ z, Means utf8 t e.1 e.2) →
      Means utf8 (.seq t) (.seq (z.map (·.1))) (.list (z.map (·.2)))
  | arr (t : Ty) (z : List (V × PyT)) : (∀ e ∈ z, Means utf8 t e.1 e.2) →
      Means utf8 (.arr t) (.seq (z.map (·.1))) (.list (z.map (·.2)))

/-- No text contains a zero byte. -/
inductive C116.NoNul : V → Prop
  | bool (b : Bool) : NoNul (.bool b)
  | char (c : UInt8) : NoNul (.char c)
  | int (i : Int) : NoNul (.int i)
  | real (r : Nat) : NoNul (.real r)
  | str (s : Str) : 0 ∉ s → NoNul (.str s)
  | enm (i : Int) : NoNul (.enm i)
  | seq (l : List V) : (∀ v ∈ l, NoNul v) → NoNul (.seq l)

/-- Integers are below `2^63`, and no character is zero. -/
inductive C116.Fits : V → Prop
  | bool (b : Bool) : Fits (.bool b)
  | char (c : UInt8) : c ≠ 0 → Fits (.char c)
  | int (i : Int) : i < 2 ^ 63 → Fits (.int i)
  | real (r : Nat) : Fits (.real r)
  | str (s : Str) : Fits (.str s)
  | enm (i : Int) : Fits (.enm i)
  | seq (l : List V) : (∀ v ∈ l, Fits v) → Fits (.seq l)

/-- Types of sequences within sequences: no characters, enums or std::arrays. -/
def C116.Deep : Ty → Prop
  | .char => False
  | .enm _ _ => False
  | .arr _ => False
  | .seq t => Deep t
  | _ => True

/-- Types of the elements of a sequence. -/
def C116.Elem : Ty → Prop
  | .char => False
  | .arr _ => False
  | .seq t => C116.Deep t
  | _ => True

/-- Types of the value given. -/
def C116.Top : Ty → Prop
  | .arr _ => False
  | .seq t => C116.Elem t
  | _ => True

/-- No std::array anywhere. -/
def C116.NoArr : Ty → Prop
  | .arr _ => False
  | .seq t => NoArr t
  | _ => True

open C116

/-! ### Lemmas -/

private theorem cstr_id {s : Str} (h : 0 ∉ s) : cstr s = s := by
  unfold cstr
  induction s with
  | nil => rfl
  | cons a s ih =>
    simp only [List.mem_cons, not_or] at h
    have : (a != 0) = true := by simpa using fun e => h.1 e.symm
    rw [List.takeWhile_cons_of_pos (by simpa using this), ih h.2]

private theorem cast_range {u : Under} {i : Int} (h : InRange u i) : EnumKeys.cast u i = i := by
  obtain ⟨w, s⟩ := u
  cases w <;> cases s <;> simp [InRange, EnumKeys.cast, Width.modulus] at h ⊢ <;> omega

private theorem cast_long {u : Under} {i : Int} (h : InRange u i) : EnumKeys.cast u (EnumKeys.cast long i) = i := by
  obtain ⟨w, s⟩ := u
  cases w <;> cases s <;> simp [InRange, EnumKeys.cast, Width.modulus, long] at h ⊢ <;> omega

private theorem cast_long_small {u : Under} {i : Int} (h : InRange u i) (hi : i < 2 ^ 63) : EnumKeys.cast long i = i := by
  obtain ⟨w, s⟩ := u
  cases w <;> cases s <;> simp [InRange, EnumKeys.cast, Width.modulus, long] at h ⊢ <;> omega

private theorem long_range (i : Int) : -(2 ^ 63) ≤ EnumKeys.cast long i ∧ EnumKeys.cast long i < 2 ^ 63 := by
  simp [EnumKeys.cast, Width.modulus, long]; omega

private theorem asLL {i : Int} (h : -(2 ^ 63) ≤ i ∧ i < 2 ^ 63) : asLongLong i = i := by
  unfold asLongLong; rw [if_pos h]

private theorem range_low {u : Under} {i : Int} (h : InRange u i) : -(2 ^ 63) ≤ i := by
  obtain ⟨w, s⟩ := u
  cases w <;> cases s <;> simp [InRange, Width.modulus] at h ⊢ <;> omega

private theorem lastName_mem {v : Int} {decl : List (Str × Int)} {n : Str} (h : lastName v decl = some n) :
    (n, v) ∈ decl := by
  unfold lastName at h
  cases hl : (decl.filter fun e => e.2 == v).getLast? with
  | none => rw [hl] at h; simp at h
  | some e =>
    rw [hl] at h
    have hm := List.mem_of_getLast? hl
    rw [List.mem_filter] at hm
    obtain ⟨a, b⟩ := e
    simp at h hm
    rw [← h, ← hm.2]; exact hm.1

private theorem newStr_ok {utf8 : Str → Bool} {s : Str} (h : utf8 s = true) (h0 : 0 ∉ s) :
    newStr utf8 s = some (.str s) := by
  unfold newStr; rw [cstr_id h0, if_pos h]

private theorem enm_facts {u : Under} {decl : List (Str × Int)} {v : Int} {n : Str} (hu : Narrow u) (hd : Decl u decl)
    (h : lastName v decl = some n) : nameOf (table decl) v = n ∧ ofName u (table decl) n = v := by
  have hm := lastName_mem h
  refine ⟨?_, C19_name hu hd n v hm⟩
  rw [C19_value hu hd v (hd.range _ hm), h]; rfl

private theorem innerL_all {utf8 : Str → Bool} {f : V × PyT → PyT} :
    ∀ z : List (V × PyT), (∀ e ∈ z, inner utf8 e.1 = some (f e)) →
      innerL utf8 (z.map (·.1)) = some (z.map f)
  | [], _ => rfl
  | e :: z, h => by
    simp only [List.map_cons, innerL]
    rw [h e (by simp), innerL_all z fun e he => h e (by simp [he])]; rfl

private theorem allSome_all {β : Type} {g : β → Option PyT} {f : β → PyT} :
    ∀ z : List β, (∀ e ∈ z, g e = some (f e)) → allSome (z.map g) = some (z.map f)
  | [], _ => rfl
  | e :: z, h => by
    simp only [List.map_cons]
    rw [h e (by simp)]
    simp only [allSome]
    rw [allSome_all z fun e he => h e (by simp [he])]; rfl

private theorem mapR_all {β : Type} {g : PyT → R V} {f : β → PyT} {w : β → V} :
    ∀ z : List β, (∀ e ∈ z, g (f e) = .ok (w e)) → mapR g (z.map f) = .ok (z.map w)
  | [], _ => rfl
  | e :: z, h => by
    simp only [List.map_cons, mapR]
    rw [h e (by simp), mapR_all z fun e he => h e (by simp [he])]; rfl

/-- What is needed of the object made. -/
private def Back (ofInt : Int → Nat) (t : Ty) (v : V) (p q : PyT) : Prop :=
  (∀ old, shr ofInt t q old = .ok v) ∧ (Fits v → q = p)

private theorem seq_back {ofInt : Int → Nat} {t : Ty} {z : List (V × PyT)} {f : V × PyT → PyT}
    (hf : ∀ e ∈ z, Back ofInt t e.1 e.2 (f e)) :
    Back ofInt (.seq t) (.seq (z.map (·.1))) (.list (z.map (·.2))) (.list (z.map f)) := by
  constructor
  · intro old
    simp only [shr]
    rw [mapR_all (w := (·.1)) z fun e he => (hf e he).1 _]; rfl
  · intro h
    cases h with
    | seq _ h =>
      congr 1
      apply List.map_congr_left
      intro e he
      exact (hf e he).2 (h _ (List.mem_map.2 ⟨e, he, rfl⟩))

open Classical in
private theorem choose_f {z : List (V × PyT)} {Q : V × PyT → PyT → Prop} (h : ∀ e ∈ z, ∃ q, Q e q) :
    ∃ f : V × PyT → PyT, ∀ e ∈ z, Q e (f e) :=
  ⟨fun e => if he : e ∈ z then (h e he).choose else .none, fun e he => by
    simp only [dif_pos he]; exact (h e he).choose_spec⟩

private theorem inner_back {utf8 : Str → Bool} (ofInt : Int → Nat) {t : Ty} {v : V} {p : PyT} (h : Means utf8 t v p) :
    Deep t → NoNul v → ∃ q, inner utf8 v = some q ∧ Back ofInt t v p q := by
  induction h with
  | bool b => intro _ _; exact ⟨.bool b, rfl, fun _ => by cases b <;> rfl, fun _ => rfl⟩
  | int u i hr =>
    intro _ _
    refine ⟨.int (EnumKeys.cast long i), rfl, fun _ => ?_, fun hf => ?_⟩
    · simp only [shr, getInt]; rw [asLL (long_range i), cast_long hr]
    · cases hf with | int _ hi => rw [cast_long_small hr hi]
  | real r => intro _ _; exact ⟨.float r, rfl, fun _ => rfl, fun _ => rfl⟩
  | str s hs =>
    intro _ hn
    cases hn with
    | str _ hn =>
      refine ⟨.str s, by simp only [inner]; exact newStr_ok hs hn, fun _ => ?_, fun _ => rfl⟩
      simp only [shr, getStr]; rw [cstr_id hn]; rfl
  | char => intro h; exact h.elim
  | enm => intro h; exact h.elim
  | arr => intro h; exact h.elim
  | seq t z hz ih =>
    intro hd hn
    cases hn with
    | seq _ hn =>
      obtain ⟨f, hf⟩ := choose_f (Q := fun e q => inner utf8 e.1 = some q ∧ Back ofInt t e.1 e.2 q)
        fun e he => ih e he hd (hn _ (List.mem_map.2 ⟨e, he, rfl⟩))
      refine ⟨.list (z.map f), ?_, seq_back fun e he => (hf e he).2⟩
      simp only [inner]; rw [innerL_all z fun e he => (hf e he).1]; rfl

private theorem enm_back {utf8 : Str → Bool} (ofInt : Int → Nat) {u : Under} {decl : List (Str × Int)} {v : Int} {n : Str}
    (hu : Narrow u) (hd : Decl u decl) (hl : lastName v decl = some n) (hn : utf8 n = true) (h0 : 0 ∉ n) :
    newStr utf8 (nameOf (table decl) v) = some (.str n)
    ∧ Back ofInt (.enm u (table decl)) (.enm v) (.str n) (.str n) := by
  obtain ⟨h1, h2⟩ := enm_facts hu hd hl
  refine ⟨by rw [h1]; exact newStr_ok hn h0, fun _ => ?_, fun _ => rfl⟩
  simp only [shr, getStr]; rw [cstr_id h0]; simp only [R.bind, h2]

private theorem ctor_back {utf8 : Str → Bool} (ofInt : Int → Nat) {t : Ty} {v : V} {p : PyT} (h : Means utf8 t v p)
    (ht : Elem t) (hn : NoNul v) : ∃ q, ctor utf8 t v = some q ∧ Back ofInt t v p q := by
  cases h with
  | enm u decl v n hu hd hl h1 h2 => exact ⟨_, enm_back ofInt hu hd hl h1 h2⟩
  | bool b => exact inner_back ofInt (.bool b) trivial hn
  | int u i hr => exact inner_back ofInt (.int u i hr) trivial hn
  | real r => exact inner_back ofInt (.real r) trivial hn
  | str s hs => exact inner_back ofInt (.str s hs) trivial hn
  | char => exact ht.elim
  | arr => exact ht.elim
  | seq t z hz => exact inner_back ofInt (.seq t z hz) ht hn

private theorem shl_back {utf8 : Str → Bool} (hu : utf8 [] = true) (ofInt : Int → Nat) {t : Ty} {v : V} {p : PyT}
    (h : Means utf8 t v p) (ht : Top t) (hn : NoNul v) : ∃ q, shl utf8 t v = some q ∧ Back ofInt t v p q := by
  cases h with
  | enm u decl v n hu hd hl h1 h2 => exact ⟨_, enm_back ofInt hu hd hl h1 h2⟩
  | bool b => exact ctor_back (utf8 := utf8) ofInt (.bool b) trivial hn
  | int u i hr => exact ctor_back (utf8 := utf8) ofInt (.int u i hr) trivial hn
  | real r => exact ctor_back (utf8 := utf8) ofInt (.real r) trivial hn
  | str s hs => exact ctor_back (utf8 := utf8) ofInt (.str s hs) trivial hn
  | char c hc =>
    by_cases h0 : c = 0
    · subst h0
      refine ⟨.str [], by simp [shl, newStr, cstr, hu], fun _ => rfl, fun hf => ?_⟩
      cases hf with | char _ hf => exact absurd rfl hf
    · have : 0 ∉ [c] := by simpa using fun e => h0 e.symm
      refine ⟨.str [c], by simp only [shl]; exact newStr_ok hc this, fun _ => ?_, fun _ => rfl⟩
      simp only [shr, getStr]; rw [cstr_id this]; rfl
  | arr => exact ht.elim
  | seq t z hz =>
    cases hn with
    | seq _ hn =>
      obtain ⟨f, hf⟩ := choose_f (Q := fun e q => ctor utf8 t e.1 = some q ∧ Back ofInt t e.1 e.2 q)
        fun e he => ctor_back ofInt (hz e he) ht (hn _ (List.mem_map.2 ⟨e, he, rfl⟩))
      refine ⟨.list (z.map f), ?_, seq_back fun e he => (hf e he).2⟩
      simp only [shl, List.map_map]
      rw [allSome_all (g := ctor utf8 t ∘ fun e : V × PyT => e.1) (f := f) z fun e he => (hf e he).1]; rfl

/-! ### C116 -/

/-- C116, partial: a value given with `<<` and taken back with `>>` is unchanged, whatever the variable held.  It is partial:
std::arrays, characters in sequences, enums in sequences of sequences and texts with zero bytes are left out, see the
counterexamples; and what is not UTF-8 is. -/
theorem C116_back_partial {utf8 : Str → Bool} (hu : utf8 [] = true) (ofInt : Int → Nat) {t : Ty} {v : V} {p : PyT}
    (h : Means utf8 t v p) (ht : Top t) (hn : NoNul v) :
    ∃ q, shl utf8 t v = some q ∧ ∀ old, shr ofInt t q old = .ok v :=
  (shl_back hu ofInt h ht hn).imp fun _ h => ⟨h.1, h.2.1⟩

/-- C116, partial: what Python is given is what stands for the value; integers below `2^63`. -/
theorem C116_seen_partial {utf8 : Str → Bool} (hu : utf8 [] = true) {t : Ty} {v : V} {p : PyT}
    (h : Means utf8 t v p) (ht : Top t) (hn : NoNul v) (hf : Fits v) : shl utf8 t v = some p := by
  obtain ⟨q, h1, h2⟩ := shl_back hu (fun _ => 0) h ht hn
  rw [h1, h2.2 hf]

/-- C116, partial: an object Python has made that stands for a value of the type is taken as that value, also characters and enums
however deep. -/
theorem C116_taken_partial {utf8 : Str → Bool} (ofInt : Int → Nat) {t : Ty} {v : V} {p : PyT} (h : Means utf8 t v p) :
    NoArr t → NoNul v → Fits v → ∀ old, shr ofInt t p old = .ok v := by
  induction h with
  | bool b => intro _ _ _ _; cases b <;> rfl
  | int u i hr =>
    intro _ _ hf _
    cases hf with
    | int _ hi => simp only [shr, getInt]; rw [asLL ⟨range_low hr, hi⟩, cast_range hr]
  | real r => intro _ _ _ _; rfl
  | str s hs =>
    intro _ hn _ _
    cases hn with
    | str _ hn => simp only [shr, getStr]; rw [cstr_id hn]; rfl
  | char c hc =>
    intro _ _ hf _
    cases hf with
    | char _ h0 =>
      have : 0 ∉ [c] := by simpa using fun e => h0 e.symm
      simp only [shr, getStr]; rw [cstr_id this]; rfl
  | enm u decl v n hu hd hl h1 h2 => intro _ _ _ old; exact (enm_back (utf8 := utf8) ofInt hu hd hl h1 h2).2.1 old
  | arr => intro h; exact h.elim
  | seq t z hz ih =>
    intro ht hn hf old
    cases hn with
    | seq _ hn =>
      cases hf with
      | seq _ hf =>
        simp only [shr]
        rw [mapR_all (w := (·.1)) z fun e he =>
          ih e he ht (hn _ (List.mem_map.2 ⟨e, he, rfl⟩)) (hf _ (List.mem_map.2 ⟨e, he, rfl⟩)) _]
        rfl

/-- A `std::vector<std::vector<unsigned long>>` of `[[7, 2^64-1], []]`: back it comes. -/
example (utf8 : Str → Bool) (hu : utf8 [] = true) : ∃ q,
    shl utf8 (.seq (.seq (.int ⟨.w64, false⟩))) (.seq [.seq [.int 7, .int 18446744073709551615], .seq []]) = some q
    ∧ ∀ old, shr (fun _ => 0) (.seq (.seq (.int ⟨.w64, false⟩))) q old
        = .ok (.seq [.seq [.int 7, .int 18446744073709551615], .seq []]) := by
  refine C116_back_partial hu (fun _ => 0)
    (p := .list [.list [.int 7, .int 18446744073709551615], .list []]) ?_ trivial ?_
  · refine Means.seq (.seq (.int ⟨.w64, false⟩))
      [(.seq [.int 7, .int 18446744073709551615], .list [.int 7, .int 18446744073709551615]), (.seq [], .list [])] ?_
    intro e he
    simp at he
    rcases he with rfl | rfl
    · refine Means.seq (.int ⟨.w64, false⟩) [(.int 7, .int 7), (.int 18446744073709551615, .int 18446744073709551615)] ?_
      intro e he
      simp at he
      rcases he with rfl | rfl <;> exact .int _ _ (by simp [InRange, Width.modulus])
    · exact Means.seq _ [] (by simp)
  · refine .seq _ fun v hv => ?_
    simp at hv
    rcases hv with rfl | rfl
    · refine .seq _ fun v hv => ?_
      simp at hv
      rcases hv with rfl | rfl <;> exact .int _
    · exact .seq _ (by simp)

/-- A list of enumerators, as Python sees it. -/
example (utf8 : Str → Bool) (hu : utf8 [] = true) (hr : utf8 [114] = true) (hg : utf8 [103] = true) :
    shl utf8 (.seq (.enm int32 (table [([114], 1), ([103], 2)]))) (.seq [.enm 2, .enm 1])
      = some (.list [.str [103], .str [114]]) := by
  have hd : Decl int32 [([114], 1), ([103], 2)] := by
    refine ⟨by decide, fun e he => ?_⟩
    simp at he
    rcases he with rfl | rfl <;> simp [InRange, int32, Width.modulus]
  refine C116_seen_partial hu (Means.seq _ [(.enm 2, .str [103]), (.enm 1, .str [114])] ?_) trivial ?_ ?_
  · intro e he
    simp at he
    rcases he with rfl | rfl
    · exact .enm _ _ _ _ (by simp [Narrow, int32]) hd (by decide) hg (by decide)
    · exact .enm _ _ _ _ (by simp [Narrow, int32]) hd (by decide) hr (by decide)
  · refine .seq _ fun v hv => ?_
    simp at hv
    rcases hv with rfl | rfl <;> exact .enm _
  · refine .seq _ fun v hv => ?_
    simp at hv
    rcases hv with rfl | rfl <;> exact .enm _

/-- C116 fails for characters in sequences: Python is given numbers, and taking them back is refused. -/
theorem C116_fails_chars (utf8 : Str → Bool) (ofInt : Int → Nat) (c : UInt8) (l : List UInt8) (old : V) :
    ∃ q, shl utf8 (.seq .char) (.seq ((c :: l).map .char)) = some q
    ∧ q = .list ((c :: l).map fun c => .int (if c.toNat < 128 then c.toNat else (c.toNat : Int) - 256))
    ∧ shr ofInt (.seq .char) q old = .throw := by
  refine ⟨_, ?_, rfl, rfl⟩
  simp only [shl, List.map_map]
  rw [allSome_all (g := ctor utf8 .char ∘ V.char) (f := fun c : UInt8 => PyT.int (if c.toNat < 128 then c.toNat else (c.toNat : Int) - 256)) (c :: l)
    fun e _ => rfl]
  rfl

/-- C116 fails for enums in sequences of sequences: Python is given bools, and taking them back is refused. -/
theorem C116_fails_enums (utf8 : Str → Bool) (ofInt : Int → Nat) (u : Under) (k : Keys) (i : Int) (old : V) :
    shl utf8 (.seq (.seq (.enm u k))) (.seq [.seq [.enm i]]) = some (.list [.list [.bool (i != 0)]])
    ∧ shr ofInt (.seq (.seq (.enm u k))) (.list [.list [.bool (i != 0)]]) old = .throw := ⟨rfl, rfl⟩

/-- C116 fails for std::array: a variable keeps what it held. -/
theorem C116_fails_array (ofInt : Int → Nat) (u : Under) (l : List PyT) (old : V) :
    shr ofInt (.arr (.int u)) (.list l) old = .ok old := by
  have : mapR (fun p => shr ofInt (.int u) p (.seq [])) (l.map id) = .ok (l.map fun p => V.int (cast u (getInt p))) :=
    mapR_all l fun e _ => rfl
  rw [List.map_id] at this
  unfold shr
  rw [this]; rfl

/-- C116 fails for texts with a zero byte: what follows it is lost. -/
theorem C116_fails_nul (utf8 : Str → Bool) (ofInt : Int → Nat) (a b : Str) (h : 0 ∉ a) (hu : utf8 a = true) (old : V) :
    shl utf8 .str (.str (a ++ 0 :: b)) = some (.str a)
    ∧ shr ofInt .str (.str a) old = .ok (.str a) ∧ a ≠ a ++ 0 :: b := by
  have hc : cstr (a ++ 0 :: b) = a := by
    have := cstr_id h
    unfold cstr at this ⊢
    rw [List.takeWhile_append_of_pos]
    · simp
    · intro x hx
      have : x ≠ 0 := fun e => h (e ▸ hx)
      simpa using this
  refine ⟨?_, ?_, ?_⟩
  · simp [shl, ctor, inner, newStr, hc, hu]
  · simp only [shr, getStr, cstr_id h]; rfl
  · intro e
    have := congrArg List.length e
    simp at this

/-- C116 fails for texts and characters that are not UTF-8: a null pointer is used as an object. -/
theorem C116_fails_utf8 (utf8 : Str → Bool) (s : Str) (c : UInt8) (h0 : 0 ∉ s) (hs : utf8 s = false) (hc0 : c ≠ 0)
    (hc : utf8 [c] = false) : shl utf8 .str (.str s) = none ∧ shl utf8 .char (.char c) = none := by
  have : 0 ∉ [c] := by simpa using fun e => hc0 e.symm
  refine ⟨?_, ?_⟩
  · simp [shl, ctor, inner, newStr, cstr_id h0, hs]
  · simp [shl, newStr, cstr_id this, hc]

/-- C116 fails for unsigned 64 bit numbers from `2^63` on: Python sees a negative one. -/
theorem C116_fails_unsigned (utf8 : Str → Bool) (i : Int) (h1 : 2 ^ 63 ≤ i) (h2 : i < 2 ^ 64) :
    shl utf8 (.int ⟨.w64, false⟩) (.int i) = some (.int (i - 2 ^ 64)) ∧ i - 2 ^ 64 < 0 := by
  refine ⟨?_, by omega⟩
  simp [shl, ctor, inner, EnumKeys.cast, long, Width.modulus]; omega

/-- C116 fails for the zero character: Python sees an empty text. -/
theorem C116_fails_zero (utf8 : Str → Bool) (hu : utf8 [] = true) : shl utf8 .char (.char 0) = some (.str []) := by
  simp [shl, newStr, cstr, hu]

/-- C116 fails to refuse what does not fit: a number too large is taken as another one of the type, a number of more than 64 bits
and anything that is no number as -1, and what is no list as an empty sequence. -/
theorem C116_fails_refuse (ofInt : Int → Nat) (old : V) :
    (∀ (u : Under) (i : Int), ¬ InRange u i → ∃ j, shr ofInt (.int u) (.int i) old = .ok (.int j) ∧ InRange u j ∧ j ≠ i)
    ∧ (∀ (w : Width) (s : Str), shr ofInt (.int ⟨w, true⟩) (.str s) old = .ok (.int (-1)))
    ∧ (∀ (w : Width) (l : List PyT), shr ofInt (.int ⟨w, true⟩) (.list l) old = .ok (.int (-1)))
    ∧ (∀ (w : Width) (i : Int), 2 ^ 63 ≤ i → shr ofInt (.int ⟨w, true⟩) (.int i) old = .ok (.int (-1)))
    ∧ (∀ s, shr ofInt .bool (.str s) old = .ok (.bool true))
    ∧ (∀ t s, shr ofInt (.seq t) (.str s) old = .ok (.seq [])) := by
  have hm : ∀ w : Width, EnumKeys.cast ⟨w, true⟩ (-1) = -1 := fun w => by cases w <;> decide
  refine ⟨fun u i hi => ?_, fun w s => ?_, fun w s => ?_, fun w i hi => ?_, fun s => rfl, fun t s => rfl⟩
  · refine ⟨_, rfl, ?_⟩
    have hr : ∀ j, InRange u (EnumKeys.cast u j) := fun j => by
      obtain ⟨w, s⟩ := u
      cases w <;> cases s <;> simp [InRange, EnumKeys.cast, Width.modulus] <;> omega
    exact ⟨hr _, fun e => hi (e ▸ hr _)⟩
  · simp only [shr, getInt, hm]
  · simp only [shr, getInt, hm]
  · simp only [shr, getInt, asLongLong]
    rw [if_neg (by omega), hm]

/-- C116: numbers given otherwise than their type is shown: True and False are 1 and 0, an integer for a floating point number is converted, and
what is no number is -1, without an exception. -/
theorem C116_numbers (ofInt : Int → Nat) (old : V) :
    (shr ofInt (.int long) (.bool true) old = .ok (.int 1) ∧ shr ofInt (.int long) (.bool false) old = .ok (.int 0)) ∧
    (shr ofInt .real (.bool true) old = .ok (.real (ofInt 1)) ∧ shr ofInt .real (.bool false) old = .ok (.real (ofInt 0))) ∧
    (∀ i, shr ofInt .real (.int i) old = .ok (.real (ofInt i))) ∧
    (∀ s, shr ofInt (.int long) (.str s) old = .ok (.int (-1)) ∧ shr ofInt .real (.str s) old = .ok (.real (ofInt (-1)))) ∧
    ∀ l, shr ofInt (.int long) (.list l) old = .ok (.int (-1)) ∧ shr ofInt .real (.list l) old = .ok (.real (ofInt (-1))) := by
  refine ⟨⟨rfl, rfl⟩, ⟨rfl, rfl⟩, fun _ => rfl, fun _ => ⟨rfl, rfl⟩, fun _ => ⟨rfl, rfl⟩⟩

end Verif.PyVal
