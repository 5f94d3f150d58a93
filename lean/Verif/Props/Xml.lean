import Verif.XmlEx
/-
XML: C25 quoting.
-/
namespace Verif.Xml
open OMap EnumKeys
open Verif.Json (JV dot tail)
open XmlP

/-! ### C25 Quoting -/

private theorem quote1_chars : ∀ (sgn : Bool) (n : Fin 256), ∀ c ∈ quote1 sgn (UInt8.ofNat n.val),
    c ≠ 60 ∧ c ≠ 62 ∧ c ≠ 34 ∧ c ≠ 39 ∧ isSpace c = false := by decide +kernel

/-- The text written for a string contains no `<`, `>`, quote or white space, whatever the string
and whatever the signedness of `char`. -/
theorem C25_no_markup (sgn : Bool) (s : Str) : ∀ c ∈ quote sgn s,
    c ≠ 60 ∧ c ≠ 62 ∧ c ≠ 34 ∧ c ≠ 39 ∧ isSpace c = false := by
  intro c hc
  simp only [quote, List.mem_flatten, List.mem_map] at hc
  obtain ⟨_, ⟨d, _, rfl⟩, hc⟩ := hc
  exact forall_byte (P := fun d => ∀ c ∈ quote1 sgn d,
    c ≠ 60 ∧ c ≠ 62 ∧ c ≠ 34 ∧ c ≠ 39 ∧ isSpace c = false) (quote1_chars sgn) d c hc

/-- An ampersand is only written as the start of an entity: what is between it and the next one or
the end contains a semicolon. -/
theorem C25_ampersand (sgn : Bool) (s x y : Str) (h : quote sgn s = x ++ 38 :: y) :
    59 ∈ y.takeWhile (· != 38) := by
  have key : ∀ n : Fin 256, ∀ k : Fin 8, (quote1 sgn (UInt8.ofNat n.val))[k.val]? = some 38 → k.val = 0 ∧
      59 ∈ ((quote1 sgn (UInt8.ofNat n.val)).drop 1).takeWhile (· != 38) ∧
      38 ∉ (quote1 sgn (UInt8.ofNat n.val)).drop 1 := by
    cases sgn <;> decide +kernel
  have len : ∀ n : Fin 256, (quote1 sgn (UInt8.ofNat n.val)).length < 8 := by
    cases sgn <;> decide +kernel
  induction s generalizing x with
  | nil => simp [quote] at h
  | cons c s ih =>
    have hq : quote sgn (c :: s) = quote1 sgn c ++ quote sgn s := by simp [quote]
    rw [hq] at h
    by_cases hx : x.length < (quote1 sgn c).length
    · have h1 : (quote1 sgn c)[x.length]? = some 38 := by
        have := congrArg (fun l : Str => l[x.length]?) h
        simp only [List.getElem?_append_left hx] at this
        rw [this]; simp
      have hl := forall_byte (P := fun c => (quote1 sgn c).length < 8) len c
      have hk := forall_byte (P := fun c => ∀ k : Fin 8, (quote1 sgn c)[k.val]? = some 38 → k.val = 0 ∧
        59 ∈ ((quote1 sgn c).drop 1).takeWhile (· != 38) ∧ 38 ∉ (quote1 sgn c).drop 1) key c
        ⟨x.length, by omega⟩ h1
      obtain ⟨h0, h2, h3⟩ := hk
      simp only at h0
      obtain rfl := List.length_eq_zero_iff.1 h0
      cases hc : quote1 sgn c with
      | nil => rw [hc] at hx; simp at hx
      | cons a r =>
        rw [hc] at h h2 h3
        simp only [List.cons_append, List.nil_append, List.cons.injEq] at h
        obtain ⟨-, rfl⟩ := h
        simp only [List.drop_succ_cons, List.drop_zero] at h2 h3
        have : (r ++ quote sgn s).takeWhile (· != 38) = r ++ (quote sgn s).takeWhile (· != 38) := by
          rw [List.takeWhile_append_of_pos]
          intro z hz; simp; intro e; subst e; exact h3 hz
        rw [this]
        simp only [List.mem_append]
        left
        exact List.mem_of_mem_takeWhile' h2
    · obtain ⟨x', rfl⟩ : ∃ x', x = quote1 sgn c ++ x' := by
        have h1 : quote1 sgn c <+: x ++ 38 :: y := ⟨_, h⟩
        have h2 : x <+: x ++ 38 :: y := ⟨_, rfl⟩
        obtain ⟨x', hx'⟩ := List.prefix_of_prefix_length_le h1 h2 (by omega)
        exact ⟨x', hx'.symm⟩
      rw [List.append_assoc] at h
      exact ih x' (List.append_cancel_left h)
where
  List.mem_of_mem_takeWhile' {p : UInt8 → Bool} {a : UInt8} {l : Str} (h : a ∈ l.takeWhile p) :
      a ∈ l := (List.takeWhile_prefix p).subset h


/-- What the reader makes of the text written for a string, whatever the string: the tokens before
the end tag put together are the string, except that with a signed `char` the codes from 157 on
(−99 to −1) come back as 0. -/
theorem C25_reads_exact (sgn : Bool) (s : Str) : ∃ l : List Str,
    l.flatten = s.map (fun c => if sgn = true ∧ 157 ≤ c then 0 else c) ∧
    ∀ x, run sgn (.text []) (quote sgn s ++ 60 :: 47 :: x) =
      (l ++ [60, 47] :: (run sgn (.text []) x).1, (run sgn (.text []) x).2) := by
  have hdc : (fun c => if sgn = true ∧ 157 ≤ c then 0 else c) = dc sgn := by
    funext c
    unfold dc goodCh
    cases sgn <;> simp [UInt8.not_lt]
    by_cases h : c < 157
    · simp [h, UInt8.not_le.2 h]
    · simp [h, UInt8.not_lt.1 h]
  rw [hdc]
  have key : ∀ p, ∃ l : List Str, l.flatten = p ++ dcd sgn s ∧
      ∀ x, run sgn (.text p) (quote sgn s ++ 60 :: 47 :: x) =
        outp (l ++ [[60, 47]]) (run sgn (.text []) x) := by
    induction s with
    | nil =>
      intro p
      refine ⟨flush p, ?_, fun x => run_ltslash p x⟩
      unfold flush; split <;> simp_all [dcd]
    | cons c s ih =>
      intro p
      have hq : quote sgn (c :: s) = quote1 sgn c ++ quote sgn s := by simp [quote]
      rw [hq]
      by_cases hc : c = 61
      · subst hc
        obtain ⟨l, h1, h2⟩ := ih []
        refine ⟨flush p ++ [61] :: l, ?_, fun x => ?_⟩
        · have : dcd sgn (61 :: s) = 61 :: dcd sgn s := by
            simp only [dcd, List.map_cons]; rw [dc_61.2 rfl]
          unfold flush; split <;> simp_all
        · rw [quote_eq, List.append_assoc, List.cons_append, List.nil_append, run_eq, h2, outp_outp]
          simp
      · obtain ⟨l, h1, h2⟩ := ih (p ++ [dc sgn c])
        refine ⟨l, by rw [h1]; simp [dcd], fun x => ?_⟩
        rw [List.append_assoc, run_encoded (enc_quote sgn hc), h2]
        cases s with
        | nil => exact ⟨60, _, rfl, by decide⟩
        | cons d s =>
          have hq' : quote sgn (d :: s) = quote1 sgn d ++ quote sgn s := by simp [quote]
          have hne : quote1 sgn d ≠ [] := by
            unfold quote1; repeat' split
            all_goals simp
          have hm := C25_no_markup sgn (d :: s)
          rw [hq'] at hm ⊢
          cases hd : quote1 sgn d with
          | nil => exact absurd hd hne
          | cons z r =>
            rw [hd] at hm
            exact ⟨z, _, rfl, (hm z (by simp)).2.1⟩
  obtain ⟨l, h1, h2⟩ := key []
  exact ⟨l, by simpa [dcd] using h1, fun x => by rw [h2]; simp [outp]⟩

/-- So the string comes back if `char` is unsigned or there are no codes from 157 on.
Missing: those codes (`C25_fails_signed`), and strings that look like markup when decoded
(`C25_fails_markup`). -/
theorem C25_reads_partial (sgn : Bool) (s : Str) (h : sgn = true → ∀ c ∈ s, c < 157) :
    ∃ l : List Str, l.flatten = s ∧ ∀ x, run sgn (.text []) (quote sgn s ++ 60 :: 47 :: x) =
      (l ++ [60, 47] :: (run sgn (.text []) x).1, (run sgn (.text []) x).2) := by
  obtain ⟨l, h1, h2⟩ := C25_reads_exact sgn s
  refine ⟨l, ?_, h2⟩
  rw [h1]
  conv => rhs; rw [← List.map_id s]
  apply List.map_congr_left
  intro c hc
  split
  · rename_i hh; exact absurd (h hh.1 c hc) (UInt8.not_lt.2 hh.2)
  · rfl

example : quote true (b "a<b & \"c\"=d") = b "a&lt;b&#0032;&amp;&#0032;&quot;c&quot;=d" := by decide
example := C25_reads_partial true (b "a<b & \"c\"=d") (by decide)

/-- With a signed `char`, code 255 is written `&#00-1;`, and read as 0. -/
theorem C25_fails_signed : quote true [255] = b "&#00-1;" ∧
    trip ⟨true, [], false⟩ false .str (.str [255]) (.str []) = some (.str [0]) :=
  ⟨by decide, eqO_eq (by decide +kernel)⟩

/-- The string `<` is written `&lt;`, which the parser takes for the start of a tag. -/
theorem C25_fails_markup : packDoc ⟨false, [], false⟩ .str (b "r") (.str (b "<")) = b "<r>&lt;</r>" ∧
    ∀ sgn, (parse sgn DB.empty (b "<r>&lt;</r>")).isNone = true :=
  ⟨by decide, fun sgn => by cases sgn <;> decide +kernel⟩

end Verif.Xml
