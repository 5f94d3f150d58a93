import Verif.Scan
/-
C44 (type-name qualification) and C45 (delimited text is skipped to the matching close).
-/
namespace Verif.Scan

/-! ### C44 -/

/-- Spec: `s` occurs in `t` at offset `k`. -/
def OccursAt (s t : Str) (k : Nat) : Prop := s <+: t.drop k

/-- Spec: the text put in place of an occurrence followed by `post`: the full name, unless a
template argument list follows, when the name is left alone. -/
def subst (shorn full post : Str) : Str :=
  if (post.dropWhile isSpace).head? = some 60 then shorn else full

private theorem findIn_none {s t : Str} (h : ∀ k, k ≤ t.length → ¬ OccursAt s t k) :
    findIn s t = none := by
  induction t with
  | nil =>
    have := h 0 (by simp)
    simp only [findIn]
    split
    · rename_i e; subst e; exact absurd (by simp [OccursAt]) this
    · rfl
  | cons c r ih =>
    have h0 := h 0 (by simp)
    simp only [findIn]
    rw [if_neg (by simpa [OccursAt, List.isPrefixOf_iff_prefix] using h0),
      ih (fun k hk => by
        have := h (k + 1) (by simp; exact hk)
        simpa [OccursAt] using this)]
    rfl

private theorem findIn_first {s : Str} (pre post : Str)
    (h : ∀ k, k < pre.length → ¬ OccursAt s (pre ++ s ++ post) k) :
    findIn s (pre ++ s ++ post) = some pre.length := by
  induction pre with
  | nil =>
    have hp : s.isPrefixOf (s ++ post) = true := by
      rw [List.isPrefixOf_iff_prefix]; exact List.prefix_append _ _
    simp only [List.nil_append, List.length_nil]
    cases hs : s ++ post with
    | nil => simp at hs; simp [findIn, hs.1]
    | cons c r => rw [hs] at hp; simp only [findIn, hp, if_true]
  | cons c r ih =>
    have h0 := h 0 (by simp)
    simp only [List.cons_append, findIn] at *
    rw [if_neg (by simpa [OccursAt, List.isPrefixOf_iff_prefix] using h0)]
    rw [ih (fun k hk => by
      have := h (k + 1) (by simp; exact hk)
      simpa [OccursAt] using this)]
    rfl

private theorem findFrom_zero (s t : Str) : findFrom s t 0 = findIn s t := by
  simp [findFrom]

private theorem findFrom_drop (s a b : Str) :
    findFrom s (a ++ b) a.length = (findIn s b).map (· + a.length) := by
  simp [findFrom]

private theorem subst_eq (shorn full post : Str) :
    (if templateFollows post then shorn else full) = subst shorn full post := by
  simp [templateFollows, subst]

/-- White space is what the C locale says: space, tab, line feed, vertical tab, form feed, carriage return. -/
theorem C44_space (c : UInt8) : isSpace c = true ↔ c ∈ [32, 9, 10, 11, 12, 13] := by
  have h : ∀ n : Fin 256, isSpace (UInt8.ofNat n.val) = true ↔ UInt8.ofNat n.val ∈ [32, 9, 10, 11, 12, 13] := by
    decide +kernel
  have := h ⟨c.toNat, c.toNat_lt⟩
  simpa using this

/-- No occurrence: the text is unchanged. -/
theorem C44_absent (input shorn full : Str)
    (h : ∀ k, k ≤ input.length → ¬ OccursAt shorn input k) :
    replaceShornTypes input shorn full = some input := by
  simp only [replaceShornTypes, findFrom_zero, findIn_none h, replaceLoop]
  simp

/-- One occurrence: it is replaced and all other text preserved.  What is missing from the full
statement: two or more occurrences (`C44_two_fails`). -/
theorem C44_single_partial (pre post shorn full : Str) (hs : shorn ≠ [])
    (hpre : ∀ k, k < pre.length → ¬ OccursAt shorn (pre ++ shorn ++ post) k)
    (hpost : ∀ k, k ≤ post.length → ¬ OccursAt shorn post k) :
    replaceShornTypes (pre ++ shorn ++ post) shorn full
      = some (pre ++ subst shorn full post ++ post) := by
  have hl : 0 < shorn.length := List.length_pos_iff.2 hs
  obtain ⟨n, hn⟩ : ∃ n, (pre ++ shorn ++ post).length + 2 = n + 2 := ⟨_, rfl⟩
  have e1 : (pre ++ shorn ++ post).drop (pre.length + shorn.length) = post := by
    rw [← List.length_append, List.drop_left]
  have e2 : findFrom shorn (pre ++ shorn ++ post) (pre.length + shorn.length) = none := by
    rw [← List.length_append, findFrom_drop, findIn_none hpost]; rfl
  have e3 : (pre ++ shorn ++ post).take pre.length = pre := by
    rw [List.append_assoc, List.take_left]
  simp only [replaceShornTypes, findFrom_zero, findIn_first pre post hpre, hn, replaceLoop,
    e1, e2, subst_eq, List.drop_zero, e3, List.nil_append]

/-- Two occurrences: always wrong.  The text between them is followed by a copy of what comes
after, because the end offset is passed where the length is expected. -/
theorem C44_two_fails (pre mid post shorn full : Str) (hs : shorn ≠ [])
    (hpre : ∀ k, k < pre.length → ¬ OccursAt shorn (pre ++ shorn ++ (mid ++ shorn ++ post)) k)
    (hmid : ∀ k, k < mid.length → ¬ OccursAt shorn (mid ++ shorn ++ post) k)
    (hpost : ∀ k, k ≤ post.length → ¬ OccursAt shorn post k) :
    replaceShornTypes (pre ++ shorn ++ (mid ++ shorn ++ post)) shorn full
      ≠ some (pre ++ subst shorn full (mid ++ shorn ++ post) ++ mid
          ++ subst shorn full post ++ post)
    ∧ replaceShornTypes (pre ++ shorn ++ (mid ++ shorn ++ post)) shorn full
      = some (pre ++ subst shorn full (mid ++ shorn ++ post) ++ mid
          ++ (shorn ++ post).take (pre.length + shorn.length)
          ++ subst shorn full post ++ post) := by
  have hl : 0 < shorn.length := List.length_pos_iff.2 hs
  have main : replaceShornTypes (pre ++ shorn ++ (mid ++ shorn ++ post)) shorn full
      = some (pre ++ subst shorn full (mid ++ shorn ++ post) ++ mid
          ++ (shorn ++ post).take (pre.length + shorn.length)
          ++ subst shorn full post ++ post) := by
    have hlen : ∃ n, (pre ++ shorn ++ (mid ++ shorn ++ post)).length + 2 = n + 3 :=
      ⟨(pre ++ shorn ++ (mid ++ shorn ++ post)).length - 1, by
        simp only [List.length_append]; omega⟩
    obtain ⟨n, hn⟩ := hlen
    have e1 : (pre ++ shorn ++ (mid ++ shorn ++ post)).drop (pre.length + shorn.length)
        = mid ++ shorn ++ post := by
      rw [← List.length_append, List.drop_left]
    have e2 : findFrom shorn (pre ++ shorn ++ (mid ++ shorn ++ post)) (pre.length + shorn.length)
        = some (mid.length + (pre.length + shorn.length)) := by
      rw [← List.length_append, findFrom_drop, findIn_first mid post hmid]; rfl
    have e3 : (pre ++ shorn ++ (mid ++ shorn ++ post)).take pre.length = pre := by
      rw [List.append_assoc, List.take_left]
    have e4 : (pre ++ shorn ++ (mid ++ shorn ++ post)).drop
        (mid.length + (pre.length + shorn.length) + shorn.length) = post := by
      rw [show pre ++ shorn ++ (mid ++ shorn ++ post) = (pre ++ shorn ++ mid ++ shorn) ++ post by
        simp [List.append_assoc],
        show mid.length + (pre.length + shorn.length) + shorn.length
          = (pre ++ shorn ++ mid ++ shorn).length by simp only [List.length_append]; omega,
        List.drop_left]
    have e5 : findFrom shorn (pre ++ shorn ++ (mid ++ shorn ++ post))
        (mid.length + (pre.length + shorn.length) + shorn.length) = none := by
      rw [show pre ++ shorn ++ (mid ++ shorn ++ post) = (pre ++ shorn ++ mid ++ shorn) ++ post by
        simp [List.append_assoc],
        show mid.length + (pre.length + shorn.length) + shorn.length
          = (pre ++ shorn ++ mid ++ shorn).length by simp only [List.length_append]; omega,
        findFrom_drop, findIn_none hpost]
      rfl
    have e6 : (mid ++ shorn ++ post).take (mid.length + (pre.length + shorn.length))
        = mid ++ (shorn ++ post).take (pre.length + shorn.length) := by
      rw [List.append_assoc, List.take_length_add_append]
    unfold replaceShornTypes
    rw [hn]
    simp only [findFrom_zero, findIn_first pre _ hpre, replaceLoop,
      e1, e2, e4, e5, e6, subst_eq, List.drop_zero, e3, List.nil_append]
    simp [List.append_assoc]
  refine ⟨?_, main⟩
  rw [main]
  intro e
  have := congrArg (Option.map List.length) e
  simp only [Option.map_some, List.length_append, List.length_take, Option.some.injEq] at this
  omega

/-- An occurrence inside a longer identifier is replaced too: `FooBar` becomes `n::FooBar` when
qualifying `Foo`. -/
theorem C44_identifier_fails :
    replaceShornTypes [70, 111, 111, 66, 97, 114] [70, 111, 111] [110, 58, 58, 70, 111, 111]
      = some [110, 58, 58, 70, 111, 111, 66, 97, 114] := by decide

/-- With an empty name the loop never ends (any number of turns is exceeded). -/
theorem C44_empty_name_diverges (input full : Str) (fuel : Nat) :
    replaceLoop input [] full fuel 0 (findFrom [] input 0) [] = none := by
  have h0 : findFrom [] input 0 = some 0 := by
    cases input <;> simp [findFrom, findIn]
  have : ∀ r, replaceLoop input [] full fuel 0 (some 0) r = none := by
    induction fuel with
    | zero => intro r; rfl
    | succ n ih =>
      intro r
      simp only [replaceLoop, List.length_nil, Nat.add_zero, h0]
      exact ih _
  rw [h0]; exact this []

/-- `const Foo& x` with Foo qualified; and `Foo <int>` left alone. -/
example : replaceShornTypes [99, 32, 70, 38] [70] [110, 58, 58, 70] = some [99, 32, 110, 58, 58, 70, 38]
    ∧ replaceShornTypes [99, 32, 70, 32, 60, 62] [70] [110, 58, 58, 70] = some [99, 32, 70, 32, 60, 62] := by
  decide

/-! ### trimWS -/

/-- C44 also relies on trimming: leading and trailing white space is removed, nothing else. -/
theorem C44_trim (pre mid post : Str) (hpre : ∀ c ∈ pre, isSpace c = true)
    (hpost : ∀ c ∈ post, isSpace c = true)
    (hne : ∀ c ∈ mid.head?, isSpace c = false) (hne' : ∀ c ∈ mid.getLast?, isSpace c = false) :
    trimWS (pre ++ mid ++ post) = mid := by
  by_cases hm : mid = []
  · subst hm
    have h1 : ∀ c ∈ pre ++ [] ++ post, isSpace c = true := by
      intro c hc; simp at hc; rcases hc with h | h
      · exact hpre c h
      · exact hpost c h
    have e1 : (pre ++ [] ++ post).takeWhile isSpace = pre ++ [] ++ post := by
      have := List.takeWhile_append_of_pos (l₂ := []) h1
      simpa using this
    unfold trimWS
    simp only [e1]
    rw [if_neg]
    have : (0:Int) ≤ (((pre ++ [] ++ post).reverse.takeWhile isSpace).length : Int) := Int.natCast_nonneg _
    omega
  · have e1 : (pre ++ mid ++ post).takeWhile isSpace = pre := by
      rw [List.append_assoc, List.takeWhile_append_of_pos hpre]
      cases mid with
      | nil => exact absurd rfl hm
      | cons c r => simp [hne c (by simp)]
    have e2 : (pre ++ mid ++ post).reverse.takeWhile isSpace = post.reverse := by
      rw [List.reverse_append, List.takeWhile_append_of_pos
        (by intro c hc; exact hpost c (List.mem_reverse.1 hc))]
      have : (pre ++ mid).reverse = mid.reverse ++ pre.reverse := List.reverse_append
      rw [this]
      cases hr : mid.reverse with
      | nil => simp at hr; exact absurd hr hm
      | cons c r =>
        have hc : c ∈ mid.getLast? := by
          rw [List.getLast?_eq_head?_reverse, hr]; simp
        simp [hne' c hc]
    unfold trimWS
    simp only [e1, e2, List.length_reverse, List.length_append]
    have hpos : 0 < mid.length := List.length_pos_iff.2 hm
    have hto : ((((pre.length + mid.length + post.length : Nat) : Int) - 1 - (post.length : Int))
        - (pre.length : Int) + 1).toNat = mid.length := by omega
    rw [if_pos (by omega), hto, List.append_assoc, List.drop_left, List.take_left]

/-! ### C45 -/

/-- Spec: nesting depth gained by a list of tokens. -/
def depth (left right : Str) : List Str → Int
  | [] => 0
  | t :: r => (if t = left then 1 else 0) - (if t = right then 1 else 0) + depth left right r

/-- Spec: `inner` is balanced up to its end: no prefix closes more than it opens, and the whole
closes what it opens. -/
def Balanced (left right : Str) (inner : List Str) : Prop :=
  (∀ k, 0 ≤ depth left right (inner.take k)) ∧ depth left right inner = 0

/-- Spec: the tokens joined with a space after each. -/
def join (ts : List Str) : Str := ts.flatMap (· ++ sp)

/-- Spec: the last token of a sequence following `d`. -/
def lastTok (d : Str) (ts : List Str) : Str := ts.getLast?.getD d

private theorem lastTok_cons (d t : Str) (r : List Str) : lastTok d (t :: r) = lastTok t r := by
  simp [lastTok, List.getLast?_cons]

private theorem gobbleLoop_run {left right : Str} (hlr : left ≠ right) (hless : left ≠ lessTok) :
    ∀ (inner : List Str) (last acc : Str) (cnt : Int) (post : List Str), 0 ≤ cnt →
      (∀ k, 0 ≤ cnt + depth left right (inner.take k)) →
      cnt + depth left right inner = 0 →
      gobbleLoop left right last acc cnt (inner ++ right :: post)
        = .done (acc ++ join inner) ⟨lastTok last inner, right, post⟩ := by
  intro inner
  induction inner with
  | nil =>
    intro last acc cnt post h0 hk he
    simp only [depth] at he
    simp only [List.nil_append, gobbleLoop]
    rw [if_pos ⟨trivial, by omega⟩]
    simp [join, lastTok]
  | cons t r ih =>
    intro last acc cnt post h0 hk he
    have h1 := hk 1
    simp only [List.take_succ_cons, List.take_zero, depth] at h1
    simp only [depth] at he
    have hk' : ∀ k, 0 ≤ cnt + ((if t = left then 1 else 0) - (if t = right then 1 else 0))
        + depth left right (r.take k) := by
      intro k
      have := hk (k + 1)
      simp only [List.take_succ_cons, depth] at this
      omega
    simp only [List.cons_append, gobbleLoop]
    rw [if_neg, if_neg (by intro h; exact hless h.2)]
    · have hc : (if t = right then (if t = left then cnt + 1 else cnt) - 1
          else if t = left then cnt + 1 else cnt)
          = cnt + ((if t = left then 1 else 0) - (if t = right then 1 else 0)) := by
        by_cases a : t = left
        · have b : t ≠ right := fun b => hlr (a.symm.trans b)
          simp only [if_pos a, if_neg b]; omega
        · by_cases b : t = right
          · simp only [if_neg a, if_pos b]; omega
          · simp only [if_neg a, if_neg b]; omega
      rw [hc, ih t _ _ post (by omega) hk' (by omega)]
      simp [join, lastTok_cons]
    · rintro ⟨rfl, hc⟩
      rw [if_neg (Ne.symm hlr), if_pos rfl] at h1
      omega

/-- C45: for brackets other than `<`, the text skipped is exactly up to the delimiter that
balances the opening one; the reader is left at that delimiter and everything after it is
untouched. -/
theorem C45_gobble {left right : Str} (hlr : left ≠ right) (hless : left ≠ [60])
    (i : Reader) (htok : i.tok ≠ left ++ right) (inner post : List Str)
    (hrest : i.rest = inner ++ right :: post) (hb : Balanced left right inner) :
    gobble i left right
      = .done (i.last ++ sp ++ i.tok ++ sp ++ join inner) ⟨lastTok i.tok inner, right, post⟩ := by
  simp only [gobble, if_neg htok, hrest]
  exact gobbleLoop_run hlr hless inner i.tok _ 0 post (by omega)
    (fun k => by have := hb.1 k; omega) (by have := hb.2; omega)

/-- The combined tokens `()` and `[]` are recognised as already closed. -/
theorem C45_gobble_pair (i : Reader) (left right : Str) (h : i.tok = left ++ right) :
    gobble i left right = .done (i.last ++ sp ++ i.tok ++ sp) i := by
  simp [gobble, h]

private theorem gobbleLoop_eof {left right : Str} (hlr : left ≠ right) (hless : left ≠ lessTok) :
    ∀ (ts : List Str) (last acc : Str) (cnt : Int), 0 ≤ cnt →
      (∀ k, 0 ≤ cnt + depth left right (ts.take k)) →
      gobbleLoop left right last acc cnt ts = .eof := by
  intro ts
  induction ts with
  | nil => intros; rfl
  | cons t r ih =>
    intro last acc cnt h0 hk
    have h1 := hk 1
    simp only [List.take_succ_cons, List.take_zero, depth] at h1
    have hk' : ∀ k, 0 ≤ cnt + ((if t = left then 1 else 0) - (if t = right then 1 else 0))
        + depth left right (r.take k) := by
      intro k
      have := hk (k + 1)
      simp only [List.take_succ_cons, depth] at this
      omega
    simp only [gobbleLoop]
    rw [if_neg, if_neg (by intro h; exact hless h.2)]
    · have hc : (if t = right then (if t = left then cnt + 1 else cnt) - 1
          else if t = left then cnt + 1 else cnt)
          = cnt + ((if t = left then 1 else 0) - (if t = right then 1 else 0)) := by
        by_cases a : t = left
        · have b : t ≠ right := fun b => hlr (a.symm.trans b)
          simp only [if_pos a, if_neg b]; omega
        · by_cases b : t = right
          · simp only [if_neg a, if_pos b]; omega
          · simp only [if_neg a, if_neg b]; omega
      rw [hc]
      exact ih t _ _ (by omega) hk'
    · rintro ⟨rfl, hc⟩
      rw [if_neg (Ne.symm hlr), if_pos rfl] at h1
      omega

/-- C45: input that ends before the balancing delimiter is reported as end of input. -/
theorem C45_gobble_eof {left right : Str} (hlr : left ≠ right) (hless : left ≠ [60])
    (i : Reader) (htok : i.tok ≠ left ++ right)
    (hopen : ∀ k, 0 ≤ depth left right (i.rest.take k)) :
    gobble i left right = .eof := by
  simp only [gobble, if_neg htok]
  exact gobbleLoop_eof hlr hless i.rest i.tok _ 0 (by omega)
    (fun k => by have := hopen k; omega)

/-- Whatever the delimiters, the reader only moves forward: what is left is a suffix of what
there was, and the current token is the one just before it. -/
theorem C45_gobble_suffix (i : Reader) (left right text : Str) (j : Reader)
    (h : gobble i left right = .done text j) :
    ∃ skipped, i.tok :: i.rest = skipped ++ j.tok :: j.rest := by
  simp only [gobble] at h
  split at h
  · cases h; exact ⟨[], rfl⟩
  · have : ∀ (ts : List Str) (last acc : Str) (cnt : Int),
        gobbleLoop left right last acc cnt ts = .done text j →
        ∃ skipped, ts = skipped ++ j.tok :: j.rest := by
      intro ts
      induction ts with
      | nil => intro _ _ _ h; cases h
      | cons t r ih =>
        intro last acc cnt h
        simp only [gobbleLoop] at h
        generalize (if t = right then (if t = left then cnt + 1 else cnt) - 1
          else if t = left then cnt + 1 else cnt) = c at h
        split at h
        · cases h; exact ⟨[], rfl⟩
        · split at h
          · split at h
            · cases h; exact ⟨[], rfl⟩
            · obtain ⟨s, hs⟩ := ih _ _ _ h
              exact ⟨t :: s, by rw [hs]; rfl⟩
          · obtain ⟨s, hs⟩ := ih _ _ _ h
            exact ⟨t :: s, by rw [hs]; rfl⟩
    obtain ⟨s, hs⟩ := this _ _ _ _ h
    exact ⟨i.tok :: s, by rw [hs]; rfl⟩

/-- C45 is false for template brackets: in `A<B<C<D>>>` the `>>` token that closes two of the
three levels ends the skip, leaving the last `>` unread. -/
theorem C45_shift_fails :
    gobble ⟨[65], [60], [[66], [60], [67], [60], [68], [62, 62], [62], [59]]⟩ [60] [62]
      = .done [65, 32, 60, 32, 66, 32, 60, 32, 67, 32, 60, 32, 68, 32, 62, 62, 32]
          ⟨[68], [62, 62], [[62], [59]]⟩ := by decide

/-- Spec: `>>` counts for two closing brackets. -/
def angleDepth : List Str → Int
  | [] => 0
  | t :: r => (if t = [60] then 1 else 0) - (if t = [62] then 1 else 0)
      - (if t = [62, 62] then 2 else 0) + angleDepth r

private theorem gobbleLoop_angle :
    ∀ (inner : List Str) (last acc : Str) (cnt : Int) (cl : Str) (post : List Str), 0 ≤ cnt →
      (cl = [62] ∧ cnt + angleDepth inner = 0 ∨ cl = [62, 62] ∧ cnt + angleDepth inner = 1) →
      (∀ k, 0 ≤ cnt + angleDepth (inner.take k)) →
      (∀ a b, inner = a ++ [62, 62] :: b → cnt + angleDepth a ≠ 2) →
      gobbleLoop [60] [62] last acc cnt (inner ++ cl :: post)
        = .done (acc ++ join inner ++ (if cl = [62, 62] then cl ++ sp else []))
            ⟨lastTok last inner, cl, post⟩ := by
  intro inner
  induction inner with
  | nil =>
    intro last acc cnt cl post h0 hcl hk hs
    simp only [angleDepth] at hcl
    rcases hcl with ⟨rfl, hc⟩ | ⟨rfl, hc⟩
    · simp only [List.nil_append, gobbleLoop]
      rw [if_pos ⟨trivial, by omega⟩]
      simp [join, lastTok]
    · have : cnt = 1 := by omega
      subst this
      simp [gobbleLoop, shiftTok, lessTok, join, lastTok]
  | cons t r ih =>
    intro last acc cnt cl post h0 hcl hk hs
    have h1 := hk 1
    simp only [List.take_succ_cons, List.take_zero, angleDepth] at h1
    simp only [angleDepth] at hcl
    have hs0 := hs [] r
    simp only [List.nil_append, angleDepth] at hs0
    have hk' : ∀ k, 0 ≤ cnt + ((if t = [60] then 1 else 0) - (if t = [62] then 1 else 0)
        - (if t = [62, 62] then 2 else 0)) + angleDepth (r.take k) := by
      intro k
      have := hk (k + 1)
      simp only [List.take_succ_cons, angleDepth] at this
      omega
    have hs' : ∀ a b, r = a ++ [62, 62] :: b →
        cnt + ((if t = [60] then 1 else 0) - (if t = [62] then 1 else 0)
        - (if t = [62, 62] then 2 else 0)) + angleDepth a ≠ 2 := by
      intro a b hab
      have := hs (t :: a) b (by rw [hab]; rfl)
      simp only [angleDepth] at this
      omega
    have step : gobbleLoop [60] [62] last acc cnt (t :: r ++ cl :: post)
        = gobbleLoop [60] [62] t (acc ++ t ++ sp)
            (cnt + ((if t = [60] then 1 else 0) - (if t = [62] then 1 else 0)
        - (if t = [62, 62] then 2 else 0))) (r ++ cl :: post) := by
      simp only [List.cons_append, gobbleLoop]
      by_cases ht1 : t = [60]
      · subst ht1; simp [shiftTok]
      · by_cases ht2 : t = [62]
        · subst ht2
          have : 0 < cnt := by simp at h1; omega
          rw [if_neg (by simp; omega)]
          simp [shiftTok]; congr 1
        · by_cases ht3 : t = [62, 62]
          · subst ht3
            simp at h1
            have h2 : cnt ≠ 2 := by
              intro e; exact hs0 rfl (by omega)
            simp [shiftTok, lessTok]
            rw [if_neg (by omega)]
            congr 1
          · simp [ht1, ht2, ht3, shiftTok]
    rw [step, ih t _ _ cl post (by omega)
      (by rcases hcl with ⟨a, b⟩ | ⟨a, b⟩
          · exact .inl ⟨a, by omega⟩
          · exact .inr ⟨a, by omega⟩) hk' hs']
    simp [join, lastTok_cons]

/-- C45 for template brackets, what is true: if no `>>` token closes the second and third
innermost of exactly three open levels (that is, occurs where exactly two brackets are open
besides the one being skipped), the skip ends at the `>` that balances the opening bracket, or
at the `>>` whose second half does.  Missing from the full statement: `C45_shift_fails`. -/
theorem C45_angle_partial (i : Reader) (htok : i.tok ≠ [60] ++ [62]) (inner : List Str)
    (cl : Str) (post : List Str) (hrest : i.rest = inner ++ cl :: post)
    (hcl : cl = [62] ∧ angleDepth inner = 0 ∨ cl = [62, 62] ∧ angleDepth inner = 1)
    (hopen : ∀ k, 0 ≤ angleDepth (inner.take k))
    (hshift : ∀ a b, inner = a ++ [62, 62] :: b → angleDepth a ≠ 2) :
    gobble i [60] [62]
      = .done (i.last ++ sp ++ i.tok ++ sp ++ join inner ++ (if cl = [62, 62] then cl ++ sp else []))
          ⟨lastTok i.tok inner, cl, post⟩ := by
  simp only [gobble, if_neg htok, hrest]
  exact gobbleLoop_angle inner i.tok _ 0 cl post (by omega)
    (by rcases hcl with ⟨a, b⟩ | ⟨a, b⟩
        · exact .inl ⟨a, by omega⟩
        · exact .inr ⟨a, by omega⟩)
    (fun k => by have := hopen k; omega)
    (fun a b h => by have := hshift a b h; omega)

/-- `f ( a ( b ) () ) ;` -/
example : gobble ⟨[102], [40], [[97], [40], [98], [41], [40, 41], [41], [59]]⟩ [40] [41]
    = .done [102, 32, 40, 32, 97, 32, 40, 32, 98, 32, 41, 32, 40, 41, 32]
        ⟨[40, 41], [41], [[59]]⟩ := by decide
example : Balanced [40] [41] [[97], [40], [98], [41], [40, 41]] := by
  refine ⟨?_, by decide⟩
  intro k
  match k with
  | 0 | 1 | 2 | 3 | 4 => decide
  | k + 5 => rw [List.take_of_length_le (by simp)]; decide
example : gobble ⟨[102], [40], [[97], [40], [98], [41]]⟩ [40] [41] = .eof := by decide
/-- `A < B < C >>` -/
example : gobble ⟨[65], [60], [[66], [60], [67], [62, 62], [59]]⟩ [60] [62]
    = .done [65, 32, 60, 32, 66, 32, 60, 32, 67, 32, 62, 62, 32] ⟨[67], [62, 62], [[59]]⟩ := by decide

/-! ### get_template_args -/

/-- Spec: the bracket weight of a token: its length if it starts with `<`, minus its length if it
starts with `>`. -/
def weight (t : Str) : Int :=
  if t.head? = some 60 then (t.length : Int)
  else if t.head? = some 62 then -(t.length : Int) else 0

def weights : List Str → Int
  | [] => 0
  | t :: r => weight t + weights r

/-- Spec: tokens joined, a space after each except the dot. -/
def joinDot (ts : List Str) : Str := ts.flatMap fun t => t ++ (if t = [46] then [] else [32])

private theorem angle_nat (cnt : Nat) (t : Str) (h0 : 0 ≤ (cnt : Int) + weight t)
    (hW : cnt + t.length < W) : (angle cnt t : Int) = cnt + weight t := by
  unfold angle weight at *
  split
  · rename_i h; rw [if_pos h] at h0
    rw [Nat.mod_eq_of_lt hW]; omega
  · rename_i h; rw [if_neg h] at h0
    split
    · rename_i h2; rw [if_pos h2] at h0
      have : t.length % W = t.length := Nat.mod_eq_of_lt (by omega)
      rw [this]
      have e : cnt + (W - t.length) = (cnt - t.length) + W := by omega
      rw [e, Nat.add_mod_right, Nat.mod_eq_of_lt (by omega)]
      omega
    · omega

private theorem templateLoop_run : ∀ (body : List Str) (last tok : Str) (cnt : Nat) (targs : Str)
    (next : Str) (post : List Str) (fuel : Nat),
    (∀ t ∈ tok :: body, t.head? ≠ some 61) →
    (∀ k, k < (tok :: body).length → 0 < k → 0 < (cnt : Int) + weights ((tok :: body).take k)) →
    (cnt : Int) + weights (tok :: body) = 0 →
    cnt + ((tok :: body).map List.length).sum < W →
    body.length < fuel →
    templateLoop fuel ⟨last, tok, body ++ next :: post⟩ cnt targs
      = .done (targs ++ joinDot (tok :: body)) ⟨lastTok tok body, next, post⟩ := by
  intro body
  induction body with
  | nil =>
    intro last tok cnt targs next post fuel heq hpos he hW hf
    obtain ⟨n, rfl⟩ : ∃ n, fuel = n + 1 := ⟨fuel - 1, by simp at hf; omega⟩
    simp only [weights] at he
    have ha := angle_nat cnt tok (by omega) (by simp at hW; omega)
    have hz : ¬ angle cnt tok > 0 := by omega
    simp only [templateLoop, if_neg (heq tok (by simp)), List.nil_append, if_neg hz]
    by_cases h46 : tok = [46] <;> simp [joinDot, lastTok, dotTok, sp, h46]
  | cons t r ih =>
    intro last tok cnt targs next post fuel heq hpos he hW hf
    obtain ⟨n, rfl⟩ : ∃ n, fuel = n + 1 := ⟨fuel - 1, by simp at hf; omega⟩
    have h1 := hpos 1 (by simp) (by omega)
    simp only [List.take_succ_cons, List.take_zero, weights] at h1
    simp only [List.map_cons, List.sum_cons] at hW
    have ha := angle_nat cnt tok (by omega) (by omega)
    have hz : angle cnt tok > 0 := by omega
    have hle : angle cnt tok ≤ cnt + tok.length := by
      have : weight tok ≤ tok.length := by unfold weight; split <;> (try split) <;> omega
      omega
    simp only [templateLoop, if_neg (heq tok (by simp)), List.cons_append, if_pos hz]
    rw [ih tok t (angle cnt tok) _ next post n]
    · by_cases h46 : tok = [46] <;> simp [joinDot, lastTok_cons, dotTok, sp, h46]
    · intro x hx; exact heq x (List.mem_cons_of_mem _ hx)
    · intro k hk hk0
      have := hpos (k + 1) (by simp at hk ⊢; omega) (by omega)
      simp only [List.take_succ_cons, weights] at this
      omega
    · simp only [weights] at he ⊢; omega
    · simp only [List.map_cons, List.sum_cons]; omega
    · simp at hf; omega

/-- C45, template argument lists without default arguments: if the angle brackets first balance
at the end of `toks`, exactly those tokens are taken and the reader is left at the next one. -/
theorem C45_template_partial (last tok next : Str) (body post : List Str)
    (heq : ∀ t ∈ tok :: body, t.head? ≠ some 61)
    (hopen : ∀ k, k < (tok :: body).length → 0 < k → 0 < weights ((tok :: body).take k))
    (hclose : weights (tok :: body) = 0)
    (hW : ((tok :: body).map List.length).sum < 2 ^ 64) :
    getTemplateArgs ⟨last, tok, body ++ next :: post⟩
      = .done (joinDot (tok :: body)) ⟨lastTok tok body, next, post⟩ := by
  have := templateLoop_run body last tok 0 [] next post
    ((body ++ next :: post).length + 1) heq (by simpa using hopen) (by simpa using hclose)
    (by simp only [W]; omega) (by simp; omega)
  simpa [getTemplateArgs] using this

/-- `template < class A , B < C >> struct`: the list is taken up to and including `>>`. -/
example : getTemplateArgs ⟨[116], [60], [[65], [44], [66], [60], [67], [62, 62], [115], [88]]⟩
    = .done [60, 32, 65, 32, 44, 32, 66, 32, 60, 32, 67, 32, 62, 62, 32] ⟨[62, 62], [115], [[88]]⟩ := by
  decide

/-- A template parameter: its tokens, and those of its default argument. -/
structure TParam where
  toks : List Str
  dflt : Option (List Str)

/-- Tokens of a list of template parameters. -/
def TParam.text (p : TParam) : List Str :=
  p.toks ++ (match p.dflt with | none => [] | some d => [61] :: d)

/-- Parameters separated by commas. -/
def commas (f : TParam → List Str) : List TParam → List Str
  | [] => []
  | [p] => f p
  | p :: q :: r => f p ++ [44] :: commas f (q :: r)

/-- The tokens bear on no brackets: they do not begin with `<`, `>` or `=`; those of a default not with a comma
either, and none is empty. -/
def TParam.Ok (p : TParam) : Prop :=
  (∀ t ∈ p.toks, t.head? ≠ some 60 ∧ t.head? ≠ some 62 ∧ t.head? ≠ some 61) ∧
  ∀ d, p.dflt = some d → ∀ t ∈ d, t.head? ≠ some 60 ∧ t.head? ≠ some 62 ∧ t.head? ≠ some 44 ∧ t ≠ []

private theorem skipDefault_run (e : Str) (r : List Str) (he : endsDefault e = true) :
    ∀ (d : List Str) (l x : Str) (fuel : Nat), (∀ t ∈ x :: d, t.head? ≠ some 60 ∧ t.head? ≠ some 62 ∧ t.head? ≠ some 44 ∧ t ≠ []) →
      d.length + 2 ≤ fuel → ∃ l', skipDefault fuel ⟨l, x, d ++ e :: r⟩ = .done [] ⟨l', e, r⟩ := by
  intro d
  induction d with
  | nil =>
    intro l x fuel h hf
    obtain ⟨n, rfl⟩ : ∃ n, fuel = n + 2 := ⟨fuel - 2, by simp at hf; omega⟩
    obtain ⟨h1, h2, h3, h4⟩ := h x (by simp)
    have hx : endsDefault x = false := by
      cases x with
      | nil => exact absurd rfl h4
      | cons c x => simp at h2 h3; simp [endsDefault, h2, h3]
    exact ⟨x, by simp [skipDefault, hx, h1, he]⟩
  | cons t d ih =>
    intro l x fuel h hf
    obtain ⟨n, rfl⟩ : ∃ n, fuel = n + 1 := ⟨fuel - 1, by simp at hf; omega⟩
    obtain ⟨h1, h2, h3, h4⟩ := h x (by simp)
    have hx : endsDefault x = false := by
      cases x with
      | nil => exact absurd rfl h4
      | cons c x => simp at h2 h3; simp [endsDefault, h2, h3]
    obtain ⟨l', e'⟩ := ih x t n (fun y hy => h y (by simp at hy ⊢; exact .inr hy)) (by simp at hf ⊢; omega)
    exact ⟨l', by simp [skipDefault, hx, h1, e']⟩

private theorem angle_none (t : Str) (h : t.head? ≠ some 60 ∧ t.head? ≠ some 62) : angle 1 t = 1 := by
  simp [angle, h]

private theorem loop_plain (x : Str) (rest : List Str) : ∀ (p : List Str) (l : Str) (t : Str) (r : List Str) (fuel : Nat) (a : Str),
    (∀ t ∈ p, t.head? ≠ some 60 ∧ t.head? ≠ some 62 ∧ t.head? ≠ some 61) → p ++ x :: rest = t :: r →
    ∃ l', templateLoop (p.length + fuel) ⟨l, t, r⟩ 1 a = templateLoop fuel ⟨l', x, rest⟩ 1 (a ++ joinDot p) := by
  intro p
  induction p with
  | nil =>
    intro l t r fuel a _ e
    simp at e
    obtain ⟨rfl, rfl⟩ := e
    exact ⟨l, by simp [joinDot]⟩
  | cons y p ih =>
    intro l t r fuel a h e
    simp at e
    obtain ⟨rfl, rfl⟩ := e
    obtain ⟨h1, h2, h3⟩ := h y (by simp)
    have hf : (y :: p).length + fuel = (p.length + fuel) + 1 := by simp; omega
    have key : ∀ (u : Str) (v : List Str), p ++ x :: rest = u :: v →
        templateLoop (p.length + fuel + 1) ⟨l, y, u :: v⟩ 1 a =
          templateLoop (p.length + fuel) ⟨y, u, v⟩ 1 (a ++ y ++ (if y = [46] then [] else [32])) := by
      intro u v _
      by_cases h46 : y = [46]
      · subst h46; simp [templateLoop, angle, dotTok]
      · simp [templateLoop, h3, angle_none y ⟨h1, h2⟩, dotTok, sp, h46]
    cases hc : p ++ x :: rest with
    | nil => simp at hc
    | cons u v =>
      obtain ⟨l', e'⟩ := ih y u v fuel (a ++ y ++ (if y = [46] then [] else [32]))
        (fun t ht => h t (by simp [ht])) hc
      refine ⟨l', ?_⟩
      rw [hf, key u v hc, e']
      simp [joinDot]

private theorem loop_param (x : Str) (rest : List Str) (hx : x = [44] ∨ x = [62]) (p : TParam) (hp : p.Ok) (l t : Str) (r : List Str)
    (fuel : Nat) (a : Str) (e : p.text ++ x :: rest = t :: r) :
    ∃ l', templateLoop (p.toks.length + (fuel + 1)) ⟨l, t, r⟩ 1 a =
      templateLoop (fuel + 1) ⟨l', x, rest⟩ 1 (a ++ joinDot p.toks) := by
  obtain ⟨ps, d⟩ := p
  cases d with
  | none =>
    simp only [TParam.text, List.append_nil] at e
    exact loop_plain x rest ps l t r (fuel + 1) a hp.1 e
  | some d =>
    simp only [TParam.text, List.append_assoc, List.cons_append] at e
    obtain ⟨l1, e1⟩ := loop_plain [61] (d ++ x :: rest) ps l t r (fuel + 1) a hp.1 e
    have hd : ∀ t ∈ [61] :: d, t.head? ≠ some 60 ∧ t.head? ≠ some 62 ∧ t.head? ≠ some 44 ∧ t ≠ [] := by
      intro t ht
      rcases List.mem_cons.1 ht with rfl | ht
      · decide
      · exact hp.2 d rfl t ht
    have he : endsDefault x = true := by rcases hx with rfl | rfl <;> rfl
    obtain ⟨l2, e2⟩ := skipDefault_run x rest he d l1 [61] ((d ++ x :: rest).length + 1) hd (by simp)
    refine ⟨l2, ?_⟩
    rw [e1]
    have hx61 : x.head? ≠ some 61 := by rcases hx with rfl | rfl <;> decide
    have hl : templateLoop (fuel + 1) ⟨l1, [61], d ++ x :: rest⟩ 1 (a ++ joinDot ps) =
        templateLoop (fuel + 1) ⟨l2, x, rest⟩ 1 (a ++ joinDot ps) := by
      rw [templateLoop.eq_def, templateLoop.eq_def]
      simp only [List.head?_cons, if_true, e2, if_neg hx61]
    exact hl

/-- C45, template parameter lists with default arguments: the defaults are left out, everything else is taken, and
the reader is left behind the list.  Missing: brackets in parameters and in defaults (`C45_default_fails`). -/
theorem C45_defaults_partial (last next : Str) (ps : List TParam) (hps : ∀ p ∈ ps, p.Ok) (post : List Str) :
    getTemplateArgs ⟨last, [60], commas TParam.text ps ++ [62] :: next :: post⟩ =
      .done (joinDot ([60] :: (commas TParam.toks ps ++ [[62]]))) ⟨[62], next, post⟩ := by
  have fin : ∀ (fuel : Nat) (l a : Str), templateLoop (fuel + 1) ⟨l, [62], next :: post⟩ 1 a =
      .done (a ++ [62, 32]) ⟨[62], next, post⟩ := by
    intro fuel l a
    simp [templateLoop, angle, W, dotTok, sp]
  have key : ∀ (ps : List TParam), (∀ p ∈ ps, p.Ok) → ∀ (l t : Str) (r : List Str) (fuel : Nat) (a : Str),
      commas TParam.text ps ++ [62] :: next :: post = t :: r → (commas TParam.toks ps).length + 1 ≤ fuel →
      templateLoop fuel ⟨l, t, r⟩ 1 a =
        .done (a ++ joinDot (commas TParam.toks ps) ++ [62, 32]) ⟨[62], next, post⟩ := by
    intro ps
    induction ps with
    | nil =>
      intro _ l t r fuel a e hf
      simp [commas] at e
      obtain ⟨rfl, rfl⟩ := e
      obtain ⟨n, rfl⟩ : ∃ n, fuel = n + 1 := ⟨fuel - 1, by omega⟩
      rw [fin]; simp [commas, joinDot]
    | cons p ps ih =>
      intro h l t r fuel a e hf
      cases ps with
      | nil =>
        simp only [commas] at e hf ⊢
        obtain ⟨n, rfl⟩ : ∃ n, fuel = p.toks.length + (n + 1) := ⟨fuel - p.toks.length - 1, by omega⟩
        obtain ⟨l1, e1⟩ := loop_param [62] (next :: post) (.inr rfl) p (h p (by simp)) l t r n a e
        rw [e1, fin]
      | cons q ps =>
        simp only [commas, List.append_assoc, List.cons_append] at e hf
        simp only [commas]
        simp only [List.length_append, List.length_cons] at hf
        obtain ⟨n, rfl⟩ : ∃ n, fuel = p.toks.length + (n + 1) := ⟨fuel - p.toks.length - 1, by omega⟩
        obtain ⟨l1, e1⟩ := loop_param [44] _ (.inl rfl) p (h p (by simp)) l t r n a e
        cases hc : commas TParam.text (q :: ps) ++ [62] :: next :: post with
        | nil => simp at hc
        | cons u v =>
          have e2 := ih (fun p hp => h p (by simp at hp ⊢; exact .inr hp)) [44] u v n
            (a ++ joinDot p.toks ++ [44, 32]) hc (by omega)
          rw [e1, hc]
          have : templateLoop (n + 1) ⟨l1, [44], u :: v⟩ 1 (a ++ joinDot p.toks) =
              templateLoop n ⟨[44], u, v⟩ 1 (a ++ joinDot p.toks ++ [44, 32]) := by
            simp [templateLoop, angle, dotTok, sp]
          rw [this, e2]
          simp [joinDot]
  cases hc : commas TParam.text ps ++ [62] :: next :: post with
  | nil => simp at hc
  | cons u v =>
    have hlen : (commas TParam.toks ps).length + 1 ≤ (u :: v).length := by
      rw [← hc]
      have : ∀ ps : List TParam, (commas TParam.toks ps).length ≤ (commas TParam.text ps).length := by
        intro ps
        induction ps with
        | nil => simp [commas]
        | cons p ps ih =>
          cases ps with
          | nil => simp [commas, TParam.text]
          | cons q ps => simp only [commas, List.length_append, List.length_cons, TParam.text] at ih ⊢; omega
      have := this ps
      simp only [List.length_append, List.length_cons]
      omega
    have e' := key ps hps [60] u v (u :: v).length ([60, 32]) hc hlen
    have : getTemplateArgs ⟨last, [60], u :: v⟩ = templateLoop (u :: v).length ⟨[60], u, v⟩ 1 [60, 32] := by
      simp [getTemplateArgs, templateLoop, angle, W, dotTok, sp]
    rw [this, e']
    simp [joinDot]

/-- `template <class A, int n = 3 + 4, class B = C>` -/
example : getTemplateArgs ⟨[116], [60], [[99], [65], [44], [105], [110], [61], [51], [43], [52], [44], [99], [66], [61],
    [67], [62], [115], [88]]⟩ = .done [60, 32, 99, 32, 65, 32, 44, 32, 105, 32, 110, 32, 44, 32, 99, 32, 66, 32, 62, 32] ⟨[62], [115], [[88]]⟩ := by
  have := C45_defaults_partial [116] [115] [⟨[[99], [65]], none⟩, ⟨[[105], [110]], some [[51], [43], [52]]⟩,
    ⟨[[99], [66]], some [[67]]⟩] (by
      intro p hp
      simp only [List.mem_cons, List.not_mem_nil, or_false] at hp
      rcases hp with rfl | rfl | rfl
      · exact ⟨by decide, nofun⟩
      · exact ⟨by decide, by intro d hd; cases hd; decide⟩
      · exact ⟨by decide, by intro d hd; cases hd; decide⟩) [[88]]
  exact this

/-- False with a default argument that closes together with the list: in
`template <class T=A<B>> struct X { a > b }` the skip of the default swallows the `>>`, so the
list runs on into the body of the class. -/
theorem C45_default_fails :
    getTemplateArgs ⟨[116], [60], [[84], [61], [65], [60], [66], [62, 62], [115], [88], [123],
        [97], [62], [98], [125]]⟩
      = .done [60, 32, 84, 32, 62, 32] ⟨[62], [98], [[125]]⟩ := by decide

/-- False when a `>>` closes more than is open: the count wraps and everything is consumed. -/
theorem C45_wrap_fails :
    getTemplateArgs ⟨[116], [60], [[65], [62, 62], [115], [88], [62], [123]]⟩ = .eof := by decide

end Verif.Scan
