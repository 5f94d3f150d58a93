import Verif.MpiMsg
/- C113, C114 -/
namespace Verif.MpiMsg

/-! ### Specification -/

/-- What a program asks to be sent: from, to, tag, and the contents of its buffer. -/
def C113.said (w : World) : Act → Option (Nat × Nat × Nat × Bytes)
  | .send p b d t | .isend p b d t | .srStart p b d t => some (p, d, t, (w.buf p b).data)
  | _ => none

/-- What a program hears: after `get`, source, tag and contents from its buffer; after `send_recv` the contents, of a message from the process
`d` with the tag asked for. -/
def C113.heard (w : World) : Act → Option (Nat × Nat × Nat × Bytes)
  | .get q b _ _ _ => some ((w.buf q b).proc, q, (w.buf q b).tag, (w.buf q b).data)
  | .srEnd q b dst _ _ (some t) _ d _ _ => if dst = q then none else some (d, q, t, (w.buf q b).data)
  | _ => none

/-- A tag is given to `send_recv` for receiving. -/
def C113.Named : Act → Prop
  | .srEnd _ _ _ _ _ rt _ _ _ _ => rt.isSome
  | _ => True

/-- An execution with all that was said and heard. -/
inductive C113.Exec (np : Nat) : World → List Act → World → List (Nat × Nat × Nat × Bytes) → List (Nat × Nat × Nat × Bytes) → Prop
  | nil (w) : C113.Exec np w [] w [] []
  | cons {w w1 w2 a as S H} : C113.Named a → step np w a = .ok w1 → C113.Exec np w1 as w2 S H →
      C113.Exec np w (a :: as) w2 ((C113.said w a).toList ++ S) ((C113.heard w1 a).toList ++ H)

/-- The contents of the messages from one process to another with a tag. -/
def C113.between (p q t : Nat) (l : List (Nat × Nat × Nat × Bytes)) : List Bytes :=
  l.filterMap fun x => if x.1 = p ∧ x.2.1 = q ∧ x.2.2.1 = t then some x.2.2.2 else none

/-- Those that wait to be received. -/
def C113.waiting (p q t : Nat) (w : World) : List Bytes :=
  (w.inbox q).filterMap fun m => if m.src = p ∧ m.tag = t then some m.data else none

/-- Some messages have arrived. -/
def C113.arrived (w : World) (q : Nat) (more : List Msg) : World := { w with inbox := fun r => if r = q then w.inbox q ++ more else w.inbox r }

/-- The buffers given to an asynchronous send that the program has not seen completed. -/
def C114.after (busy : Nat → Nat → Bool) : Act → Nat → Nat → Bool
  | .isend p b d _, q, c => if d ≠ p ∧ q = p ∧ c = b then true else busy q c
  | .wait p b, q, c | .destroy p b, q, c | .sent p b true, q, c => if q = p ∧ c = b then false else busy q c
  | _, q, c => busy q c

/-- Destinations exist; such buffers are not used; send_recv receives from one process, with the tag it sends with; calls on arrays complete
nothing. -/
def C114.allowed (np : Nat) (busy : Nat → Nat → Bool) : Act → Prop
  | .put p b xs => xs = [] ∨ busy p b = false
  | .send p _ d _ | .srStart p _ d _ => d ≠ p → d < np
  | .isend p b d _ => d ≠ p → d < np ∧ busy p b = false
  | .get q b _ _ _ => busy q b = false
  | .srEnd p b _ st src rt _ _ _ _ => busy p b = false ∧ src.isSome ∧ rt = some st
  | .multi _ _ cs => cs = []
  | _ => True

def C114.Careful (np : Nat) : (Nat → Nat → Bool) → List Act → Prop
  | _, [] => True
  | busy, a :: as => C114.allowed np busy a ∧ C114.Careful np (C114.after busy a) as

open C113 C114

/-! ### Receiving -/

private theorem takeFirst_find (f : Msg → Bool) : ∀ l : List Msg, (takeFirst f l).map Prod.fst = l.find? f
  | [] => rfl
  | m :: l => by
    have ih := takeFirst_find f l
    simp only [takeFirst, List.find?_cons]
    cases h : f m
    · cases hl : takeFirst f l with
      | none => rw [hl] at ih; simp at ih ⊢; simpa using ih
      | some x => rw [hl] at ih; simp at ih ⊢; exact ih
    · simp

private theorem takeFirst_append (f : Msg → Bool) (more : List Msg) : ∀ {l : List Msg} {m r}, takeFirst f l = some (m, r) →
    takeFirst f (l ++ more) = some (m, r ++ more)
  | [], m, r, h => by simp [takeFirst] at h
  | a :: l, m, r, h => by
    simp only [takeFirst, List.cons_append] at h ⊢
    cases hf : f a
    · rw [hf] at h
      simp only [Bool.false_eq_true, if_false] at h ⊢
      cases hl : takeFirst f l with
      | none => rw [hl] at h; simp at h
      | some x =>
        rw [hl] at h
        simp only [Option.map_some, Option.some.injEq, Prod.mk.injEq] at h
        rw [takeFirst_append f more (show takeFirst f l = some (x.1, x.2) from hl)]
        simp [← h.1, ← h.2]
    · rw [hf] at h
      simp at h ⊢
      simp [← h.1, ← h.2]

/-- The first of those of a process that match a pattern is the first of that process with its tag. -/
private theorem find_exact (c : Nat) (tag : Option Nat) : ∀ {l : List Msg} {s}, l.find? (fits c tag) = some s →
    s.src = c ∧ (tag = none ∨ tag = some s.tag) ∧ l.find? (fits s.src (some s.tag)) = some s
  | [], s, h => by simp at h
  | a :: l, s, h => by
    rw [List.find?_cons] at h
    cases hf : fits c tag a
    · rw [hf] at h
      obtain ⟨h1, h2, h3⟩ := find_exact c tag (l := l) h
      refine ⟨h1, h2, ?_⟩
      have : fits s.src (some s.tag) a = false := by
        rw [← Bool.not_eq_true]
        intro g
        simp only [fits, Bool.and_eq_true, beq_iff_eq, Option.isNone_some, Bool.false_or, Option.some.injEq] at g
        have : fits c tag a = true := by
          simp only [fits, Bool.and_eq_true, beq_iff_eq, Bool.or_eq_true, Option.isNone_iff_eq_none]
          exact ⟨g.1.trans h1, by rw [← g.2]; exact h2⟩
        rw [hf] at this
        cases this
      rw [List.find?_cons, this]
      exact h3
    · rw [hf] at h
      simp only [Option.some.injEq] at h
      subst h
      simp only [fits, Bool.and_eq_true, beq_iff_eq, Bool.or_eq_true, Option.isNone_iff_eq_none] at hf
      refine ⟨hf.1, hf.2, ?_⟩
      rw [List.find?_cons]
      simp [fits]

private theorem take_of_find {f : Msg → Bool} {l : List Msg} {s} (h : l.find? f = some s) : ∃ r, takeFirst f l = some (s, r) := by
  have := takeFirst_find f l
  rw [h] at this
  cases ht : takeFirst f l with
  | none => rw [ht] at this; simp at this
  | some x =>
    rw [ht] at this
    simp at this
    exact ⟨x.2, by rw [← this]⟩

private theorem setInbox_get (w : World) (q : Nat) (l : List Msg) : (setInbox w q l).inbox q = l := by simp [setInbox]

/-- What a get comes to. -/
private theorem get_eq (q b : Nat) (src tag : Option Nat) (c : Nat) (more : List Msg) (w : World) :
    (getLate q b src tag c more w = .blocked ∧ (src.isSome ∧ src ≠ some c ∨ (w.inbox q).find? (fits c tag) = none)) ∨
    ∃ s r, (src = none ∨ src = some c) ∧ (w.inbox q).find? (fits c tag) = some s ∧ takeFirst (fits s.src (some s.tag)) (w.inbox q) = some (s, r) ∧
      getLate q b src tag c more w = if pending w q b then .bad else
        .ok (setBuf (setInbox w q (r ++ more)) q b { w.buf q b with data := s.data, pos := 0, proc := s.src, tag := s.tag }) := by
  unfold getLate
  by_cases hs : src.isSome ∧ src ≠ some c
  · exact .inl ⟨by rw [if_pos hs], .inl hs⟩
  · have hs' : src = none ∨ src = some c := by
      cases src with
      | none => exact .inl rfl
      | some x =>
        by_cases hx : some x = some c
        · exact .inr hx
        · exact absurd ⟨rfl, hx⟩ hs
    rw [if_neg hs]
    cases hf : (w.inbox q).find? (fits c tag) with
    | none => exact .inl ⟨rfl, .inr rfl⟩
    | some s =>
      obtain ⟨_, _, h3⟩ := find_exact c tag hf
      obtain ⟨r, hr⟩ := take_of_find h3
      refine .inr ⟨s, r, hs', rfl, hr, ?_⟩
      simp only
      cases hp : pending w q b
      · simp only [Bool.false_eq_true, if_false, recv, setInbox_get, takeFirst_append _ more hr, if_true]
        congr 2
        simp only [setInbox, World.mk.injEq, true_and]
        funext x
        by_cases hx : x = q <;> simp [hx]
      · simp

/-! ### C113 -/

/-- Nothing that arrives between finding a message and receiving it makes a difference. -/
theorem C113_atomic (q b : Nat) (src tag : Option Nat) (c : Nat) (more : List Msg) (w w' : World) (h : getLate q b src tag c more w = .ok w') :
    get q b src tag c (arrived w q more) = .ok w' := by
  rcases get_eq q b src tag c more w with ⟨h1, _⟩ | ⟨s, r, hs, hf, ht, he⟩
  · rw [h1] at h; cases h
  · rw [he] at h
    have hp : pending w q b = false := by
      cases hp : pending w q b
      · rfl
      · rw [hp] at h; simp at h
    rw [hp] at h
    simp only [Bool.false_eq_true, if_false, Out.ok.injEq] at h
    have hf' : ((arrived w q more).inbox q).find? (fits c tag) = some s := by simp [arrived, hf]
    rcases get_eq q b src tag c [] (arrived w q more) with ⟨_, h2 | h2⟩ | ⟨s', r', _, hf2, ht2, he2⟩
    · rcases hs with rfl | rfl <;> simp at h2
    · rw [hf'] at h2; cases h2
    · rw [hf'] at hf2
      cases hf2
      have e : takeFirst (fits s.src (some s.tag)) ((arrived w q more).inbox q) = some (s, r ++ more) := by
        simp only [arrived, if_true]; exact takeFirst_append _ _ ht
      rw [e] at ht2
      cases ht2
      rw [get, he2]
      have : pending (arrived w q more) q b = false := hp
      rw [this, ← h]
      simp only [Bool.false_eq_true, if_false, List.append_nil, Out.ok.injEq]
      simp only [setBuf, setInbox, arrived, World.mk.injEq, true_and]
      funext x
      by_cases hx : x = q <;> simp [hx]

private theorem waiting_take {f : Msg → Bool} (p t : Nat) (hfit : ∀ m x, f m = true → x.src = m.src → x.tag = m.tag → f x = true) :
    ∀ {l : List Msg} {m r}, takeFirst f l = some (m, r) →
      l.filterMap (fun m => if m.src = p ∧ m.tag = t then some m.data else none) =
        (if m.src = p ∧ m.tag = t then [m.data] else []) ++ r.filterMap (fun m => if m.src = p ∧ m.tag = t then some m.data else none)
  | [], m, r, h => by simp [takeFirst] at h
  | a :: l, m, r, h => by
    have hm : f m = true := by
      have := takeFirst_find f (a :: l)
      rw [h] at this
      exact List.find?_some this.symm
    simp only [takeFirst] at h
    cases hf : f a
    · rw [hf] at h
      simp only [Bool.false_eq_true, if_false] at h
      cases hl : takeFirst f l with
      | none => rw [hl] at h; simp at h
      | some x =>
        rw [hl] at h
        simp only [Option.map_some, Option.some.injEq, Prod.mk.injEq] at h
        obtain ⟨rfl, rfl⟩ := h
        have ih := waiting_take p t hfit (show takeFirst f l = some (x.1, x.2) from hl)
        rw [List.filterMap_cons, ih, List.filterMap_cons]
        by_cases h1 : x.1.src = p ∧ x.1.tag = t
        · have h2 : ¬ (a.src = p ∧ a.tag = t) := by
            intro g
            have := hfit x.1 a hm (g.1.trans h1.1.symm) (g.2.trans h1.2.symm)
            rw [hf] at this
            cases this
          simp only [h1, h2, if_true, if_false, and_self]
        · simp only [h1, if_false, List.nil_append]
    · rw [hf] at h
      simp only [if_true, Option.some.injEq, Prod.mk.injEq] at h
      obtain ⟨rfl, rfl⟩ := h
      rw [List.filterMap_cons]
      by_cases h1 : a.src = p ∧ a.tag = t
      · simp [h1]
      · simp only [h1, if_false, List.nil_append]

private theorem fits_mono (c : Nat) (tag : Option Nat) (m x : Msg) (h : fits c tag m = true) (h1 : x.src = m.src) (h2 : x.tag = m.tag) : fits c tag x = true := by
  simpa [fits, h1, h2] using h

private theorem waiting_post (p q t src dst tag : Nat) (xs : Bytes) (w : World) :
    waiting p q t (post src dst tag xs w) = waiting p q t w ++ between p q t [(src, dst, tag, xs)] := by
  by_cases hq : q = dst
  · subst hq
    by_cases h : src = p ∧ tag = t <;> simp [waiting, post, setInbox, between, List.filterMap_append, h]
  · have : ¬ dst = q := fun h => hq h.symm
    simp [waiting, post, setInbox, between, hq, this]

private theorem waiting_of_inbox {w w' : World} (h : w.inbox = w'.inbox) (p q t : Nat) : waiting p q t w = waiting p q t w' := by
  rw [waiting, waiting, h]

private theorem wait_inbox {p b : Nat} {w w' : World} (h : wait p b w = .ok w') : w'.inbox = w.inbox := by
  unfold wait at h
  split at h
  · cases h; rfl
  · split at h
    · cases h; rfl
    · cases h

private theorem between_one (p q t : Nat) (x : Nat × Nat × Nat × Bytes) :
    between p q t [x] = if x.1 = p ∧ x.2.1 = q ∧ x.2.2.1 = t then [x.2.2.2] else [] := by
  by_cases h : x.1 = p ∧ x.2.1 = q ∧ x.2.2.1 = t <;> simp [between, h]

private theorem fifo_step {np : Nat} {w w1 : World} {a : Act} (hx : Named a) (h : step np w a = .ok w1) {p q : Nat} (t : Nat) (hpq : p ≠ q) :
    waiting p q t w ++ between p q t (said w a).toList = between p q t (heard w1 a).toList ++ waiting p q t w1 := by
  cases a with
  | put x b xs =>
    simp only [step, put] at h
    split at h
    · cases h; simp [said, heard, between]
    · split at h
      · cases h
      · cases h; simp [said, heard, between]; rfl
  | reset x b => simp only [step, reset] at h; cases h; simp [said, heard, between]; rfl
  | send x b d g =>
    simp only [step, send] at h
    split at h
    · cases h
      have : ¬ (x = p ∧ d = q ∧ g = t) := by rintro ⟨rfl, rfl, _⟩; exact hpq (by simp_all)
      simp [said, heard, between, this]
    · split at h
      · cases h
      · cases h
        simp only [said, heard, Option.toList]
        rw [waiting_of_inbox (w := setBuf _ _ _ _) (w' := post x d g (w.buf x b).data w) rfl, waiting_post]
        simp [between]
  | isend x b d g =>
    simp only [step, isend] at h
    split at h
    · cases h
      have : ¬ (x = p ∧ d = q ∧ g = t) := by rintro ⟨rfl, rfl, _⟩; exact hpq (by simp_all)
      simp [said, heard, between, this]
    · split at h
      · cases h
      · simp only [Out.ok.injEq] at h
        have e : w1.inbox = (post x d g (w.buf x b).data w).inbox := by rw [← h]; rfl
        simp only [said, heard, Option.toList]
        rw [waiting_of_inbox e, waiting_post]
        simp [between]
  | get y b src tag c =>
    simp only [step, get] at h
    rcases get_eq y b src tag c [] w with ⟨h1, _⟩ | ⟨s, r, hs, hf, ht, he⟩
    · rw [h1] at h; cases h
    · rw [he] at h
      split at h
      · cases h
      · simp only [Out.ok.injEq] at h
        subst h
        simp only [said, heard, Option.toList, between_one]
        simp only [setBuf, and_self, if_true]
        by_cases hq : y = q
        · subst hq
          have e := waiting_take p t (fits_mono s.src (some s.tag)) ht
          simp only [waiting, setInbox, if_true, List.append_nil] at e ⊢
          rw [e]
          by_cases h1 : s.src = p ∧ s.tag = t <;> simp [h1, between]
        · have hq' : ¬ q = y := fun h => hq h.symm
          simp [waiting, setInbox, hq, hq', between]
  | srStart x b d g =>
    simp only [step, srStart] at h
    split at h
    · cases h
      have : ¬ (x = p ∧ d = q ∧ g = t) := by rintro ⟨rfl, rfl, _⟩; exact hpq (by simp_all)
      simp [said, heard, between, this]
    · split at h
      · cases h
      · cases h
        simp only [said, heard, Option.toList]
        rw [waiting_post]
        simp [between]
  | srEnd y b dst st src rt c d jx jy =>
    obtain ⟨rt, rfl⟩ := Option.isSome_iff_exists.1 hx
    simp only [step, srEnd] at h
    split at h
    · cases h
      simp [said, heard, between, *]
    · rename_i hd
      split at h
      · cases h
      · split at h
        · cases h
        · simp only [recv] at h
          split at h
          · cases h
          · cases h
          · rename_i w2 hw2
            split at hw2
            · cases hw2
            · rename_i m l hm
              split at hw2
              · simp only [Option.some.injEq, Prod.mk.injEq] at hw2
                obtain ⟨rfl, rfl⟩ := hw2
                split at h
                · cases h
                · simp only [Out.ok.injEq] at h
                  subst h
                  simp only [said, heard, hd, if_false, Option.toList, between_one]
                  simp only [setBuf, and_self, if_true]
                  by_cases hq : y = q
                  · subst hq
                    have e := waiting_take p t (fits_mono d (some rt)) hm
                    simp only [waiting, setInbox, if_true] at e ⊢
                    rw [e]
                    have hg := List.find?_some (show List.find? (fits d (some rt)) (w.inbox y) = some m by rw [← takeFirst_find, hm]; rfl)
                    simp only [fits, Bool.and_eq_true, beq_iff_eq, Option.isNone_some, Bool.false_or, Option.some.injEq] at hg
                    rw [← hg.1, hg.2]
                    by_cases h1 : m.src = p ∧ m.tag = t <;> simp [h1, between]
                  · have hq' : ¬ q = y := fun h => hq h.symm
                    simp [waiting, setInbox, hq, hq', between]
              · simp at hw2
  | wait x b =>
    simp only [step] at h
    simp [said, heard, between, waiting_of_inbox (wait_inbox h)]
  | sent x b f =>
    simp only [step, sent] at h
    have : w1.inbox = w.inbox := by
      split at h
      · split at h <;> cases h; rfl
      · split at h
        · split at h
          · exact wait_inbox h
          · cases h; rfl
        · cases h
    simp [said, heard, between, waiting_of_inbox this]
  | multi x bs cs =>
    simp only [step, multi] at h
    split at h
    · cases h; simp [said, heard, between]; rfl
    · cases h
  | destroy x b =>
    simp only [step, destroy] at h
    have : w1.inbox = w.inbox := by
      split at h
      · rename_i hw
        split at h
        · cases h
        · cases h; simpa [setBuf] using wait_inbox hw
      · rename_i r hr
        exact absurd h (by intro e; exact hr _ e)
    simp [said, heard, between, waiting_of_inbox this]

private theorem between_append (p q t : Nat) (l m) : between p q t (l ++ m) = between p q t l ++ between p q t m := List.filterMap_append

private theorem fifo {np : Nat} {w w' : World} {as : List Act} {S H} (h : Exec np w as w' S H) {p q : Nat} (t : Nat) (hpq : p ≠ q) :
    waiting p q t w ++ between p q t S = between p q t H ++ waiting p q t w' := by
  induction h with
  | nil w => simp [between]
  | cons hx hs _ ih =>
    rw [between_append, between_append, ← List.append_assoc, fifo_step hx hs t hpq, List.append_assoc, ih, List.append_assoc]

/-- **C113**: between two processes, of each tag, what is heard is what was said, in that order, nothing lost and nothing twice; the rest is
waiting. -/
theorem C113_fifo_partial {np : Nat} {w : World} {as : List Act} {S H} (h : Exec np start as w S H) {p q : Nat} (t : Nat) (hpq : p ≠ q) :
    between p q t S = between p q t H ++ waiting p q t w := by
  have := fifo h t hpq
  simpa [waiting, start] using this

/-- Unless it is asked for with a buffer still being sent, a message that is waiting can be received, and only then. -/
theorem C113_waiting (q b : Nat) (src tag : Option Nat) (w : World) (hb : pending w q b = false) :
    msgWaiting q src tag w = true ↔ ∃ c w', get q b src tag c w = .ok w' := by
  constructor
  · intro h
    simp only [msgWaiting, List.any_eq_true, Bool.and_eq_true, Bool.or_eq_true, Option.isNone_iff_eq_none, beq_iff_eq] at h
    obtain ⟨m, hm, h1, h2⟩ := h
    have hfm : fits m.src tag m = true := by
      simp only [fits, Bool.and_eq_true, beq_iff_eq, Bool.or_eq_true, Option.isNone_iff_eq_none]; exact ⟨trivial, h2⟩
    rcases get_eq q b src tag m.src [] w with ⟨_, h3 | h3⟩ | ⟨s, r, _, _, _, he⟩
    · rcases h1 with rfl | rfl <;> simp at h3
    · rw [List.find?_eq_none] at h3
      exact absurd hfm (h3 m hm)
    · rw [hb] at he
      exact ⟨_, _, he⟩
  · rintro ⟨c, w', h⟩
    rcases get_eq q b src tag c [] w with ⟨h1, _⟩ | ⟨s, r, hs, hf, _, _⟩
    · rw [get, h1] at h; cases h
    · obtain ⟨e1, e2, _⟩ := find_exact c tag hf
      simp only [msgWaiting, List.any_eq_true, Bool.and_eq_true, Bool.or_eq_true, Option.isNone_iff_eq_none, beq_iff_eq]
      exact ⟨s, List.mem_of_find?_eq_some hf, by rw [e1]; exact hs, e2⟩

/-- What is received: the first of those of a process that match, with its source, its tag and its contents, to be read from the start. -/
theorem C113_get (q b : Nat) (src tag : Option Nat) (w : World) (pre rest : List Msg) (m : Msg) (hi : w.inbox q = pre ++ m :: rest)
    (hs : src = none ∨ src = some m.src) (ht : tag = none ∨ tag = some m.tag)
    (hp : ∀ x ∈ pre, x.src = m.src → tag ≠ none ∧ tag ≠ some x.tag) (hb : pending w q b = false) :
    ∃ w', get q b src tag m.src w = .ok w' ∧ w'.inbox q = pre ++ rest ∧
      (w'.buf q b).data = m.data ∧ (w'.buf q b).pos = 0 ∧ (w'.buf q b).proc = m.src ∧ (w'.buf q b).tag = m.tag := by
  have hfm : fits m.src tag m = true := by
    simp only [fits, Bool.and_eq_true, beq_iff_eq, Bool.or_eq_true, Option.isNone_iff_eq_none]; exact ⟨trivial, ht⟩
  have hpre : ∀ x ∈ pre, fits m.src tag x = false := by
    intro x hx
    rw [← Bool.not_eq_true]
    intro g
    simp only [fits, Bool.and_eq_true, beq_iff_eq, Bool.or_eq_true, Option.isNone_iff_eq_none] at g
    obtain ⟨g1, g2⟩ := hp x hx g.1
    rcases g.2 with h | h
    · exact g1 h
    · exact g2 h
  have hfind : (w.inbox q).find? (fits m.src tag) = some m := by
    rw [hi, List.find?_append, List.find?_eq_none.2 (fun x hx => by simp [hpre x hx])]
    simp [hfm]
  have htake : ∀ pre : List Msg, (∀ x ∈ pre, fits m.src tag x = false) →
      takeFirst (fits m.src (some m.tag)) (pre ++ m :: rest) = some (m, pre ++ rest) := by
    intro pre
    induction pre with
    | nil => intro _; simp [takeFirst, fits]
    | cons a pre ih =>
      intro h
      have ha : fits m.src (some m.tag) a = false := by
        rw [← Bool.not_eq_true]
        intro g
        simp only [fits, Bool.and_eq_true, beq_iff_eq, Option.isNone_some, Bool.false_or, Option.some.injEq] at g
        have := fits_mono m.src tag m a hfm g.1 g.2.symm
        rw [h a (by simp)] at this
        cases this
      rw [List.cons_append, takeFirst, ha, ih fun x hx => h x (by simp [hx])]
      simp
  rcases get_eq q b src tag m.src [] w with ⟨_, h3 | h3⟩ | ⟨s, r, _, hf, ht', he⟩
  · rcases hs with rfl | rfl <;> simp at h3
  · rw [hfind] at h3; cases h3
  · rw [hfind] at hf
    cases hf
    rw [hi, htake pre hpre] at ht'
    cases ht'
    rw [hb] at he
    exact ⟨_, he, by simp [setBuf, setInbox]⟩

private theorem pigeon : ∀ (l m : List Nat), l.Nodup → (∀ x ∈ l, x ∈ m) → m.length ≤ l.length → ∀ x ∈ m, x ∈ l
  | [], m, _, _, h, x, hx => by
    have : m = [] := List.length_eq_zero_iff.1 (Nat.le_zero.1 h)
    rw [this] at hx; cases hx
  | a :: l, m, hn, hs, h, x, hx => by
    obtain ⟨h1, h2⟩ := List.nodup_cons.1 hn
    have ha := hs a (by simp)
    have hl := List.length_erase_of_mem ha
    have hpos : 0 < m.length := List.length_pos_of_mem ha
    by_cases e : x = a
    · simp [e]
    · refine List.mem_cons_of_mem _ (pigeon l (m.erase a) h2 ?_ (by simp at h; omega) x ((List.mem_erase_of_ne e).2 hx))
      intro y hy
      exact (List.mem_erase_of_ne (fun e => h1 (by rw [← e]; exact hy))).2 (hs y (by simp [hy]))

/-- Who was heard by a process with a tag, in order. -/
def C113.sources (q t : Nat) (l : List (Nat × Nat × Nat × Bytes)) : List Nat :=
  l.filterMap fun x => if x.2.1 = q ∧ x.2.2.1 = t then some x.1 else none

private theorem sources_count (p q t : Nat) (l) : (sources q t l).count p = (between p q t l).length := by
  induction l with
  | nil => rfl
  | cons x l ih =>
    simp only [sources, between, List.filterMap_cons] at ih ⊢
    by_cases h1 : x.2.1 = q ∧ x.2.2.1 = t
    · by_cases h2 : x.1 = p
      · simp [h1, h2, ih]
      · simp [h1, h2, ih]
    · have h2 : ¬ (x.1 = p ∧ x.2.1 = q ∧ x.2.2.1 = t) := fun h => h1 h.2
      simp [h1, ih]

private theorem noself_step {np : Nat} {w w1 : World} {a : Act} (hx : Named a) (h : step np w a = .ok w1) (hn : ∀ q, ∀ m ∈ w.inbox q, m.src ≠ q) :
    (∀ q, ∀ m ∈ w1.inbox q, m.src ≠ q) ∧ ∀ x ∈ (heard w1 a).toList, x.1 ≠ x.2.1 := by
  have hpost : ∀ {x d g xs}, d ≠ x → ∀ q, ∀ m ∈ (post x d g xs w).inbox q, m.src ≠ q := by
    intro x d g xs hd q m hm
    simp only [post, setInbox] at hm
    split at hm
    · rename_i hq
      rcases List.mem_append.1 hm with hm | hm
      · rw [hq]; exact hn d m hm
      · simp only [List.mem_singleton] at hm
        rw [hm, hq]
        exact fun e => hd e.symm
    · exact hn q m hm
  have htake : ∀ {f : Msg → Bool} {l : List Msg} {m r}, takeFirst f l = some (m, r) → m ∈ l ∧ ∀ x ∈ r, x ∈ l := by
    intro f l
    induction l with
    | nil => intro m r h; simp [takeFirst] at h
    | cons a l ih =>
      intro m r h
      simp only [takeFirst] at h
      split at h
      · cases h; simp; intro x hx; exact .inr hx
      · cases hl : takeFirst f l with
        | none => rw [hl] at h; simp at h
        | some y =>
          rw [hl] at h
          simp only [Option.map_some, Option.some.injEq, Prod.mk.injEq] at h
          obtain ⟨rfl, rfl⟩ := h
          obtain ⟨i1, i2⟩ := ih (show takeFirst f l = some (y.1, y.2) from hl)
          refine ⟨List.mem_cons_of_mem _ i1, ?_⟩
          intro x hx
          rcases List.mem_cons.1 hx with rfl | hx
          · simp
          · exact List.mem_cons_of_mem _ (i2 x hx)
  have hset : ∀ {q : Nat} {l : List Msg}, (∀ x ∈ l, x ∈ w.inbox q) → ∀ r, ∀ m ∈ (setInbox w q l).inbox r, m.src ≠ r := by
    intro q l hl r m hm
    simp only [setInbox] at hm
    split at hm
    · rename_i hr
      rw [hr]; exact hn q m (hl m hm)
    · exact hn r m hm
  cases a with
  | put x b xs =>
    simp only [step, put] at h
    split at h
    · cases h; exact ⟨hn, by simp [heard]⟩
    · split at h <;> cases h
      exact ⟨hn, by simp [heard]⟩
  | reset x b => simp only [step, reset] at h; cases h; exact ⟨hn, by simp [heard]⟩
  | send x b d g =>
    simp only [step, send] at h
    split at h
    · cases h; exact ⟨hn, by simp [heard]⟩
    · rename_i hd
      split at h <;> cases h
      exact ⟨hpost hd, by simp [heard]⟩
  | isend x b d g =>
    simp only [step, isend] at h
    split at h
    · cases h; exact ⟨hn, by simp [heard]⟩
    · rename_i hd
      split at h <;> cases h
      exact ⟨hpost hd, by simp [heard]⟩
  | srStart x b d g =>
    simp only [step, srStart] at h
    split at h
    · cases h; exact ⟨hn, by simp [heard]⟩
    · rename_i hd
      split at h <;> cases h
      exact ⟨hpost hd, by simp [heard]⟩
  | get y b src tag c =>
    simp only [step, get] at h
    rcases get_eq y b src tag c [] w with ⟨h1, _⟩ | ⟨s, r, hs, hf, ht, he⟩
    · rw [h1] at h; cases h
    · rw [he] at h
      split at h
      · cases h
      · simp only [Out.ok.injEq] at h
        subst h
        obtain ⟨h1, h2⟩ := htake ht
        refine ⟨hset (by simpa using h2), ?_⟩
        simp [heard, setBuf]
        exact hn y s h1
  | srEnd y b dst st src rt c d jx jy =>
    obtain ⟨rt, rfl⟩ := Option.isSome_iff_exists.1 hx
    simp only [step, srEnd] at h
    split at h
    · cases h
      exact ⟨hn, by simp [heard, *]⟩
    · rename_i hd
      split at h
      · cases h
      · split at h
        · cases h
        · simp only [recv] at h
          split at h
          · cases h
          · cases h
          · rename_i w2 hw2
            split at hw2
            · cases hw2
            · rename_i m l hm
              split at hw2
              · simp only [Option.some.injEq, Prod.mk.injEq] at hw2
                obtain ⟨rfl, rfl⟩ := hw2
                split at h
                · cases h
                · simp only [Out.ok.injEq] at h
                  subst h
                  obtain ⟨h1, h2⟩ := htake hm
                  refine ⟨hset h2, ?_⟩
                  have hg := List.find?_some (show List.find? (fits d (some rt)) (w.inbox y) = some m by rw [← takeFirst_find, hm]; rfl)
                  simp only [fits, Bool.and_eq_true, beq_iff_eq] at hg
                  simp [heard, hd, setBuf]
                  rw [← hg.1]
                  exact hn y m h1
              · simp at hw2
  | wait x b =>
    simp only [step] at h
    rw [wait_inbox h]
    exact ⟨hn, by simp [heard]⟩
  | sent x b f =>
    simp only [step, sent] at h
    have : w1.inbox = w.inbox := by
      split at h
      · split at h <;> cases h; rfl
      · split at h
        · split at h
          · exact wait_inbox h
          · cases h; rfl
        · cases h
    rw [this]
    exact ⟨hn, by simp [heard]⟩
  | multi x bs cs =>
    simp only [step, multi] at h
    split at h <;> cases h
    exact ⟨hn, by simp [heard]⟩
  | destroy x b =>
    simp only [step, destroy] at h
    have : w1.inbox = w.inbox := by
      split at h
      · rename_i hw
        split at h
        · cases h
        · cases h; simpa [setBuf] using wait_inbox hw
      · rename_i r hr
        exact absurd h (by intro e; exact hr _ e)
    rw [this]
    exact ⟨hn, by simp [heard]⟩

private theorem noself {np : Nat} {w w' : World} {as : List Act} {S H} (h : Exec np w as w' S H) :
    (∀ q, ∀ m ∈ w.inbox q, m.src ≠ q) → (∀ q, ∀ m ∈ w'.inbox q, m.src ≠ q) ∧ ∀ x ∈ H, x.1 ≠ x.2.1 := by
  induction h with
  | nil w => intro hn; exact ⟨hn, by simp⟩
  | cons hx hs _ ih =>
    intro hn
    obtain ⟨h1, h2⟩ := noself_step hx hs hn
    obtain ⟨h3, h4⟩ := ih h1
    refine ⟨h3, ?_⟩
    intro x hm
    rcases List.mem_append.1 hm with hm | hm
    · exact h2 x hm
    · exact h4 x hm

/-- The all-to-all exchange of the manual: if every process has sent at most one message with the tag to this one, and it has received as
many as there are other processes, then it has received one from each, with what that one sent. -/
theorem C113_all_to_all {np : Nat} {w : World} {as : List Act} {S H} (h : Exec np start as w S H) (q t : Nat) (hq : q < np)
    (hone : ∀ p, (between p q t S).length ≤ 1) (hsrc : ∀ p ∈ sources q t H, p < np) (hall : (sources q t H).length = np - 1)
    (p : Nat) (hp : p < np) (hpq : p ≠ q) : ∃ xs, between p q t S = [xs] ∧ between p q t H = [xs] := by
  have hself : ∀ x ∈ sources q t H, x ≠ q := by
    intro x hx
    simp only [sources, List.mem_filterMap] at hx
    obtain ⟨y, hy, he⟩ := hx
    split at he
    · rename_i hyq
      have := (noself h (by simp [start])).2 y hy
      simp only [Option.some.injEq] at he
      rw [← he, ← hyq.1]; exact this
    · cases he
  have hle : ∀ p, p ≠ q → (between p q t H).length ≤ 1 := by
    intro p hpq
    have := hone p
    rw [C113_fifo_partial h t hpq, List.length_append] at this
    omega
  have hnd : (sources q t H).Nodup := by
    rw [List.nodup_iff_count]
    intro a
    by_cases ha : a ∈ sources q t H
    · rw [sources_count]; exact hle a (hself a ha)
    · rw [List.count_eq_zero_of_not_mem ha]; omega
  have hm := pigeon _ ((List.range np).erase q) hnd (by
    intro x hx
    exact (List.mem_erase_of_ne (hself x hx)).2 (List.mem_range.2 (hsrc x hx)))
    (by rw [hall, List.length_erase_of_mem (List.mem_range.2 hq)]; simp) p ((List.mem_erase_of_ne hpq).2 (List.mem_range.2 hp))
  have hc := sources_count p q t H
  have hpos := List.count_pos_iff.2 hm
  have h1 := hle p hpq
  obtain ⟨xs, hxs⟩ : ∃ xs, between p q t H = [xs] := List.length_eq_one_iff.1 (by omega)
  refine ⟨xs, ?_, hxs⟩
  have h2 := hone p
  have h3 := C113_fifo_partial h t hpq
  rw [hxs] at h3
  rw [h3, List.length_append, List.length_singleton] at h2
  rw [h3, List.length_eq_zero_iff.1 (by omega : (waiting p q t w).length = 0)]
  rfl

/-- `send_recv` from one process with the tag it sends with receives what `get` does, but neither source nor tag are set from it. -/
theorem C113_sendrecv_partial (p b dst t c x y : Nat) (w : World) (hd : dst ≠ p) :
    (∀ w', get p b (some c) (some t) c w = .ok w' →
      srEnd p b dst t (some c) (some t) c c x y w = .ok (setBuf w' p b { w'.buf p b with proc := x, tag := y })) ∧
    (get p b (some c) (some t) c w = .blocked → srEnd p b dst t (some c) (some t) c c x y w = .blocked) := by
  have e0 : setInbox w p (w.inbox p ++ []) = w := by
    simp only [setInbox, List.append_nil]
    congr 1
    funext r
    by_cases h : r = p <;> simp [h]
  simp only [srEnd, get, getLate, if_neg hd, e0]
  cases hf : (w.inbox p).find? (fits c (some t)) with
  | none => simp
  | some s =>
    obtain ⟨h1, h2, h3⟩ := find_exact c (some t) hf
    have h2 : s.tag = t := by rcases h2 with h | h <;> simp at h; exact h.symm
    rw [h1, h2] at h3
    obtain ⟨r, hr⟩ := take_of_find h3
    have hp : ∀ l, pending (setInbox w p l) p b = pending w p b := fun _ => rfl
    simp only [recv, h1, h2, hr, if_true, hp]
    cases pending w p b
    · simp only [Option.isSome_some, ne_eq, not_true_eq_false, or_self, and_false, if_false, Bool.false_eq_true, Out.ok.injEq]
      refine ⟨?_, by simp⟩
      intro w' e
      rw [← e]
      simp [setBuf]
      funext q z
      by_cases hq : q = p ∧ z = b <;> simp [hq]
    · simp

/-- With another tag for receiving, it waits for a message with the tag sent, though one with the tag asked for may be there. -/
theorem C113_fails_sendrecv_tag (p b dst st : Nat) (src rt : Option Nat) (c d x y : Nat) (w : World) (hd : dst ≠ p) (h : ∀ m ∈ w.inbox p, m.tag ≠ st) :
    srEnd p b dst st src rt c d x y w = .blocked := by
  simp only [srEnd, if_neg hd]
  split
  · rfl
  · rw [List.find?_eq_none.2]
    intro m hm
    simp [fits]
    intro _ e
    exact h m hm e.symm

/-- With the default arguments, a message from another process, or an earlier one of another tag, can be received where one of another length was
found. -/
theorem C113_fails_sendrecv_any (p b dst st x y : Nat) (m m' : Msg) (w : World) (hd : dst ≠ p) (hi : w.inbox p = [m, m'])
    (h : m'.tag = st) (hm : m.tag = st → m.src ≠ m'.src) (hl : m.data.length ≠ m'.data.length) :
    srEnd p b dst st none none m'.src m.src x y w = .bad := by
  have h1 : fits m'.src (some st) m = false := by
    rw [← Bool.not_eq_true]
    intro g
    simp only [fits, Bool.and_eq_true, beq_iff_eq, Option.isNone_some, Bool.false_or, Option.some.injEq] at g
    exact hm g.2.symm g.1
  have h2 : fits m'.src (some st) m' = true := by simp [fits, h]
  have h3 : fits m.src none m = true := by simp [fits]
  simp [srEnd, hd, hi, h1, h2, recv, takeFirst, h3, hl]

/-- A message to oneself is not sent, its buffer is not cleared, and it is never received. -/
theorem C113_fails_self {np : Nat} {w : World} {as : List Act} {S H} (h : Exec np start as w S H) (p b t : Nat) :
    send np p b p t w = .ok w ∧ isend np p b p t w = .ok w ∧ ∀ c tag, get p c (some p) tag p w = .blocked := by
  refine ⟨by simp [send], by simp [isend], ?_⟩
  intro c tag
  rcases get_eq p c (some p) tag p [] w with ⟨h1, _⟩ | ⟨s, r, _, hf, _, _⟩
  · exact h1
  · obtain ⟨e, _, _⟩ := find_exact p tag hf
    exact absurd e ((noself h (by simp [start])).1 p s (List.mem_of_find?_eq_some hf))

/-- After `send_recv`, source and tag in the buffer are anything. -/
theorem C113_fails_sendrecv_proc (p b dst st : Nat) (src rt : Option Nat) (c d x y : Nat) (w w' : World) (hd : dst ≠ p)
    (h : srEnd p b dst st src rt c d x y w = .ok w') : (w'.buf p b).proc = x ∧ (w'.buf p b).tag = y ∧
      ∀ x' y', ∃ w'', srEnd p b dst st src rt c d x' y' w = .ok w'' ∧ (w''.buf p b).proc = x' ∧ (w''.buf p b).tag = y' := by
  simp only [srEnd, if_neg hd] at h ⊢
  split at h
  · cases h
  · rename_i h1
    simp only [if_neg h1]
    split at h
    · cases h
    · rename_i s hs
      try simp only [hs]
      split at h
      · cases h
      · cases h
      · rename_i m w1 hr
        try simp only [hr]
        split at h
        · cases h
        · rename_i hp
          simp only [if_neg hp]
          cases h
          exact ⟨by simp [setBuf], by simp [setBuf], fun x' y' => ⟨_, rfl, by simp [setBuf], by simp [setBuf]⟩⟩

/-! ### C114 -/

/-- Requests not completed are exactly those of the buffers. -/
private structure Inv (busy : Nat → Nat → Bool) (w : World) : Prop where
  live : ∀ p h b, (h, b) ∈ w.live p ↔ (w.buf p b).req = some h
  busy : ∀ p b, busy p b = (w.buf p b).req.isSome
  uniq : ∀ p b b' h, (w.buf p b).req = some h → (w.buf p b').req = some h → b = b'
  next : ∀ p b h, (w.buf p b).req = some h → h < w.next p

private theorem Inv.pending {busy : Nat → Nat → Bool} {w : World} (I : Inv busy w) (p b : Nat) : pending w p b = busy p b := by
  rw [I.busy]
  cases h : (w.buf p b).req with
  | none =>
    rw [Option.isSome_none, ← Bool.not_eq_true]
    intro g
    simp only [MpiMsg.pending, List.any_eq_true, beq_iff_eq] at g
    obtain ⟨x, hx, rfl⟩ := g
    have := (I.live p x.1 x.2).1 hx
    rw [h] at this
    cases this
  | some k =>
    simp only [MpiMsg.pending, Option.isSome_some, List.any_eq_true, beq_iff_eq]
    exact ⟨(k, b), (I.live p k b).2 h, rfl⟩

private theorem Inv.valid {busy : Nat → Nat → Bool} {w : World} (I : Inv busy w) {p b h : Nat} (hr : (w.buf p b).req = some h) :
    ((w.live p).any (·.1 == h)) = true := by
  simp only [List.any_eq_true, beq_iff_eq]
  exact ⟨(h, b), (I.live p h b).2 hr, rfl⟩

/-- Whatever leaves requests alone. -/
private theorem Inv.same {busy : Nat → Nat → Bool} {w w' : World} (I : Inv busy w) (hr : ∀ p b, (w'.buf p b).req = (w.buf p b).req)
    (hl : w'.live = w.live) (hn : w'.next = w.next) : Inv busy w' := by
  refine ⟨?_, ?_, ?_, ?_⟩
  · intro p h b; rw [hl, hr]; exact I.live p h b
  · intro p b; rw [hr]; exact I.busy p b
  · intro p b b' h; rw [hr, hr]; exact I.uniq p b b' h
  · intro p b h; rw [hr, hn]; exact I.next p b h

private theorem setBuf_req {w : World} {p b : Nat} {x : Buf} (hx : x.req = (w.buf p b).req) (q c : Nat) :
    ((setBuf w p b x).buf q c).req = (w.buf q c).req := by
  simp only [setBuf]
  split
  · rename_i h; rw [h.1, h.2]; exact hx
  · rfl

private theorem Inv.wait {busy : Nat → Nat → Bool} {w : World} (I : Inv busy w) (p b : Nat) : ∃ w', MpiMsg.wait p b w = .ok w' ∧
    Inv (fun q c => if q = p ∧ c = b then false else busy q c) w' ∧ (w'.buf p b).req = none := by
  cases hr : (w.buf p b).req with
  | none =>
    refine ⟨w, by simp [MpiMsg.wait, hr], ⟨I.live, ?_, I.uniq, I.next⟩, hr⟩
    intro q c
    split
    · rename_i h; rw [h.1, h.2, hr]; rfl
    · exact I.busy q c
  | some h =>
    simp only [MpiMsg.wait, hr, I.valid hr, if_true]
    refine ⟨_, rfl, ⟨?_, ?_, ?_, ?_⟩, by simp [setBuf]⟩
    · intro q k c
      simp only [setBuf, setLive]
      by_cases hq : q = p
      · subst hq
        simp only [if_true, List.mem_filter, bne_iff_ne, ne_eq, true_and]
        by_cases hc : c = b
        · subst hc
          simp only [if_true]
          rw [I.live, hr]
          constructor
          · rintro ⟨h1, h2⟩; cases h1; exact absurd rfl h2
          · intro h1; cases h1
        · simp only [hc, if_false]
          rw [I.live]
          refine ⟨fun g => g.1, fun g => ⟨g, ?_⟩⟩
          rintro rfl
          exact hc (I.uniq q c b k g hr)
      · simp only [hq, if_false, false_and]
        exact I.live q k c
    · intro q c
      simp only [setBuf]
      split
      · rfl
      · exact I.busy q c
    · intro q c c' k
      simp only [setBuf]
      split
      · intro g; cases g
      · split
        · intro _ g; cases g
        · exact I.uniq q c c' k
    · intro q c k
      simp only [setBuf]
      split
      · intro g; cases g
      · exact I.next q c k

private theorem safe_step {np : Nat} {busy : Nat → Nat → Bool} {w : World} (I : Inv busy w) (a : Act) (ha : allowed np busy a) :
    step np w a = .blocked ∨ ∃ w', step np w a = .ok w' ∧ Inv (after busy a) w' := by
  cases a with
  | put p b xs =>
    simp only [step, put, I.pending]
    by_cases hx : xs = []
    · exact .inr ⟨w, by simp [hx], I⟩
    · rcases ha with h | h
      · exact absurd h hx
      · rw [if_neg hx, h]
        exact .inr ⟨_, rfl, I.same (setBuf_req rfl) rfl rfl⟩
  | reset p b => exact .inr ⟨_, rfl, I.same (setBuf_req rfl) rfl rfl⟩
  | send p b d t =>
    simp only [step, send]
    by_cases hd : d = p
    · exact .inr ⟨w, by simp [hd], I⟩
    · have := ha hd
      rw [if_neg hd, if_neg (by omega)]
      exact .inr ⟨_, rfl, I.same (setBuf_req (w := post p d t (w.buf p b).data w) rfl) rfl rfl⟩
  | srStart p b d t =>
    simp only [step, srStart]
    by_cases hd : d = p
    · exact .inr ⟨w, by simp [hd], I⟩
    · have := ha hd
      rw [if_neg hd, if_neg (by omega)]
      exact .inr ⟨_, rfl, I.same (fun _ _ => rfl) rfl rfl⟩
  | isend p b d t =>
    simp only [step, isend]
    by_cases hd : d = p
    · refine .inr ⟨w, by simp [hd], ?_⟩
      have : after busy (.isend p b d t) = busy := by funext q c; simp [after, hd]
      rw [this]; exact I
    · obtain ⟨h1, h2⟩ := ha hd
      have hnone : (w.buf p b).req = none := by
        have := I.busy p b
        rw [h2] at this
        cases hr : (w.buf p b).req with
        | none => rfl
        | some k => rw [hr] at this; cases this
      refine .inr ⟨_, by rw [if_neg hd, if_neg (by omega)], ⟨?_, ?_, ?_, ?_⟩⟩
      · intro q k c
        simp only [setBuf, setLive, post, setInbox]
        by_cases hq : q = p
        · subst hq
          simp only [if_true, true_and, List.mem_cons, Prod.mk.injEq]
          by_cases hc : c = b
          · subst hc
            simp only [if_true, and_true]
            rw [I.live, hnone]
            simp
            exact ⟨fun e => e.symm, fun e => e.symm⟩
          · simp only [hc, if_false, and_false, false_or]
            exact I.live q k c
        · simp only [hq, if_false, false_and]
          exact I.live q k c
      · intro q c
        simp only [setBuf, setLive, post, setInbox, after]
        by_cases hq : q = p ∧ c = b
        · simp [hq, hd]
        · have : ¬ (d ≠ p ∧ q = p ∧ c = b) := fun h => hq h.2
          rw [if_neg this, if_neg hq]
          exact I.busy q c
      · intro q c c' k
        simp only [setBuf, setLive, post, setInbox]
        split
        · rename_i h1
          split
          · rename_i h2; intro _ _; rw [h1.2, h2.2]
          · intro g1 g2
            cases g1
            rw [h1.1] at g2
            exact absurd (I.next p c' _ g2) (by omega)
        · split
          · rename_i h2
            intro g1 g2
            cases g2
            rw [h2.1] at g1
            exact absurd (I.next p c _ g1) (by omega)
          · exact I.uniq q c c' k
      · intro q c k
        simp only [setBuf, setLive, post, setInbox]
        split
        · rename_i h1
          intro g
          cases g
          rw [if_pos h1.1]
          omega
        · intro g
          have := I.next q c k g
          split
          · rename_i h2; rw [h2] at this; omega
          · exact this
  | get q b src tag c =>
    simp only [step, get]
    rcases get_eq q b src tag c [] w with ⟨h1, _⟩ | ⟨s, r, _, _, _, he⟩
    · exact .inl h1
    · have hb : busy q b = false := ha
      rw [I.pending, hb] at he
      exact .inr ⟨_, he, I.same (setBuf_req (w := setInbox w q _) rfl) rfl rfl⟩
  | srEnd p b dst st src rt c d x y =>
    obtain ⟨hb, hs, rfl⟩ := ha
    simp only [step]
    by_cases hd : dst = p
    · exact .inr ⟨w, by simp [srEnd, hd], I⟩
    · obtain ⟨s, rfl⟩ := Option.isSome_iff_exists.1 hs
      by_cases hc : s = c ∧ s = d
      · obtain ⟨rfl, rfl⟩ := hc
        obtain ⟨k1, k2⟩ := C113_sendrecv_partial p b dst st s x y w hd
        rcases get_eq p b (some s) (some st) s [] w with ⟨h1, _⟩ | ⟨m, r, _, _, _, he⟩
        · exact .inl (k2 h1)
        · rw [I.pending, hb] at he
          refine .inr ⟨_, k1 _ he, ?_⟩
          refine I.same ?_ rfl rfl
          intro q z
          rw [setBuf_req (w := setBuf _ _ _ _) (by rfl), setBuf_req (w := setInbox w p _) (by rfl)]
          rfl
      · left
        have : some s ≠ some c ∨ some s ≠ some d := by
          by_cases h1 : s = c
          · exact .inr fun e => hc ⟨h1, Option.some.inj e⟩
          · exact .inl fun e => h1 (Option.some.inj e)
        rw [srEnd, if_neg hd, if_pos ⟨rfl, this⟩]
  | wait p b =>
    obtain ⟨w', h1, h2, _⟩ := I.wait p b
    exact .inr ⟨w', h1, h2⟩
  | sent p b f =>
    simp only [step, sent]
    obtain ⟨w', h1, h2, _⟩ := I.wait p b
    cases hr : (w.buf p b).req with
    | none =>
      simp only
      cases f
      · exact .inl rfl
      · simp only [MpiMsg.wait, hr] at h1
        cases h1
        exact .inr ⟨w, rfl, h2⟩
    | some k =>
      simp only [I.valid hr, if_true]
      cases f
      · exact .inr ⟨w, rfl, I⟩
      · exact .inr ⟨w', h1, h2⟩
  | multi p bs cs =>
    have hc : cs = [] := ha
    subst hc
    simp only [step, multi]
    rw [if_pos]
    · refine .inr ⟨_, rfl, I.same (fun _ _ => rfl) ?_ rfl⟩
      simp only [setLive]
      funext q
      by_cases hq : q = p
      · subst hq; simp
      · simp [hq]
    · rw [List.all_eq_true]
      intro b _
      split
      · rfl
      · exact I.valid (by assumption)
  | destroy p b =>
    simp only [step, destroy]
    obtain ⟨w', h1, h2, h3⟩ := I.wait p b
    have hp : pending w' p b = false := by rw [h2.pending]; simp
    rw [h1]
    simp only [hp, Bool.false_eq_true, if_false]
    exact .inr ⟨_, rfl, h2.same (setBuf_req (by rw [h3]; rfl)) rfl rfl⟩

private theorem safe (np : Nat) : ∀ (as : List Act) (busy : Nat → Nat → Bool) (w : World), Inv busy w → Careful np busy as → run np w as ≠ .bad
  | [], _, w, _, _ => by simp [run]
  | a :: as, busy, w, I, h => by
    rw [run]
    rcases safe_step I a h.1 with e | ⟨w', e, I'⟩
    · rw [e]; simp
    · rw [e]; exact safe np as _ w' I' h.2

/-- **C114**: programs that leave a buffer alone until they have seen that it was sent do nothing undefined, however their calls interleave; a
buffer can be destroyed at any time. -/
theorem C114_safe_partial (np : Nat) (as : List Act) (h : Careful np (fun _ _ => false) as) : run np start as ≠ .bad :=
  safe np as _ start ⟨by simp [start, Buf.fresh], by simp [start, Buf.fresh], by simp [start, Buf.fresh], by simp [start, Buf.fresh]⟩ h

/-- A buffer just given to an asynchronous send: the new request is the one of the buffer. -/
private theorem isend_ok {np p b d t : Nat} {w w1 : World} (h : isend np p b d t w = .ok w1) (hd : d ≠ p) :
    (w1.buf p b).req = some (w.next p) ∧ w1.live p = (w.next p, b) :: w.live p ∧ w1.next p = w.next p + 1 := by
  simp only [isend, if_neg hd] at h
  split at h
  · cases h
  · cases h
    simp [setBuf, setLive]

/-- To pack something into a buffer, or receive into it, while it is being sent, is undefined. -/
theorem C114_fails_reuse (np p b d t : Nat) (w w1 : World) (h : isend np p b d t w = .ok w1) (hd : d ≠ p) :
    (∀ xs, xs ≠ [] → put p b xs w1 = .bad) ∧ ∀ src tag c, get p b src tag c w1 = .blocked ∨ get p b src tag c w1 = .bad := by
  have hp : pending w1 p b = true := by
    rw [pending, (isend_ok h hd).2.1]
    simp
  refine ⟨fun xs hx => by simp [put, hx, hp], fun src tag c => ?_⟩
  rcases get_eq p b src tag c [] w1 with ⟨h1, _⟩ | ⟨s, r, _, _, _, he⟩
  · exact .inl h1
  · rw [hp] at he; exact .inr he

/-- Once a call on an array has completed the request of a buffer, every further use of that request is undefined: destroying the buffer,
`wait`, `sent`, and every call on an array it is in. -/
theorem C114_fails_array (np p b d t : Nat) (w w1 w2 : World) (h : isend np p b d t w = .ok w1) (hd : d ≠ p) (bs cs : List Nat)
    (hb : b ∈ bs) (hc : b ∈ cs) (hm : multi p bs cs w1 = .ok w2) :
    destroy p b w2 = .bad ∧ wait p b w2 = .bad ∧ (∀ f, sent p b f w2 = .bad) ∧ ∀ bs' cs', b ∈ bs' → multi p bs' cs' w2 = .bad := by
  obtain ⟨h1, h2, _⟩ := isend_ok h hd
  simp only [multi] at hm
  split at hm
  · simp only [Out.ok.injEq] at hm
    have hr : (w2.buf p b).req = some (w.next p) := by rw [← hm]; exact h1
    have hl : ((w2.live p).any (·.1 == w.next p)) = false := by
      rw [← hm, ← Bool.not_eq_true]
      intro g
      simp only [setLive, if_true, List.any_eq_true, List.mem_filter, beq_iff_eq, Bool.not_eq_true', ← Bool.not_eq_true] at g
      obtain ⟨x, ⟨_, g2⟩, g3⟩ := g
      apply g2
      exact ⟨b, hc, by simp [hb, h1, g3]⟩
    have hw : wait p b w2 = .bad := by simp only [wait, hr, hl]; rfl
    refine ⟨by simp only [destroy, hw], hw, fun f => by simp only [sent, hr, hl]; rfl, fun bs' cs' hb' => ?_⟩
    simp only [multi]
    rw [if_neg]
    intro g
    rw [List.all_eq_true] at g
    have := g b hb'
    simp only [hr, hl] at this
    cases this
  · cases hm

/-- Of two asynchronous sends of one buffer only the second is waited for. -/
theorem C114_fails_twice (np p b d t d' t' : Nat) (w w1 w2 : World) (h : isend np p b d t w = .ok w1) (hd : d ≠ p)
    (h' : isend np p b d' t' w1 = .ok w2) (hd' : d' ≠ p) : destroy p b w2 = .bad := by
  obtain ⟨_, h2, h3⟩ := isend_ok h hd
  obtain ⟨k1, k2, _⟩ := isend_ok h' hd'
  have hw : ∃ w3, wait p b w2 = .ok w3 ∧ pending w3 p b = true := by
    simp only [wait, k1, k2, List.any_cons, BEq.rfl, Bool.true_or, if_true]
    refine ⟨_, rfl, ?_⟩
    simp only [pending, setBuf, setLive, if_true, List.any_eq_true, beq_iff_eq, List.mem_filter]
    refine ⟨(w.next p, b), ⟨?_, ?_⟩, rfl⟩
    · rw [h2]; simp
    · simp only [bne_iff_ne, ne_eq]; rw [h3]; omega
  obtain ⟨w3, e, hp⟩ := hw
  simp [destroy, e, hp]

/-! ### What is packed -/

/-- What the calls pack into a buffer. -/
def C113.puts (p b : Nat) : List Act → Bytes
  | [] => []
  | .put q c xs :: as => if q = p ∧ c = b then xs ++ C113.puts p b as else C113.puts p b as
  | _ :: as => C113.puts p b as

/-- Calls that give a buffer other contents. -/
def C113.Renews (p b : Nat) : Act → Prop
  | .reset q c => q = p ∧ c = b
  | .send q c _ _ => q = p ∧ c = b
  | .isend q c _ _ => q = p ∧ c = b
  | .get q c _ _ _ => q = p ∧ c = b
  | .srEnd q c _ _ _ _ _ _ _ _ => q = p ∧ c = b
  | .destroy q c => q = p ∧ c = b
  | _ => False

private theorem setBuf_data {w : World} {p b q c : Nat} {x : Buf} (h : ¬ (q = p ∧ c = b)) : ((setBuf w q c x).buf p b) = w.buf p b := by
  have : ¬ (p = q ∧ b = c) := fun g => h ⟨g.1.symm, g.2.symm⟩
  simp [setBuf, this]

private theorem wait_data {w w' : World} {q c : Nat} (p b : Nat) (h : wait q c w = .ok w') : (w'.buf p b).data = (w.buf p b).data := by
  simp only [wait] at h
  split at h
  · cases h; rfl
  · split at h
    · cases h
      by_cases e : p = q ∧ b = c
      · obtain ⟨rfl, rfl⟩ := e; simp [setBuf, setLive]
      · simp [setBuf, setLive, e]
    · cases h

private theorem step_data {np : Nat} {w w' : World} {a : Act} {p b : Nat} (h : step np w a = .ok w') (hr : ¬ Renews p b a) :
    (w'.buf p b).data = (w.buf p b).data ++ puts p b [a] := by
  cases a with
  | put q c xs =>
    simp only [step, put] at h
    split at h
    · rename_i hx; cases h; simp [puts, hx]
    · split at h
      · cases h
      · cases h
        by_cases e : q = p ∧ c = b
        · obtain ⟨rfl, rfl⟩ := e; simp [puts, setBuf]
        · rw [setBuf_data e]; simp [puts, e]
  | reset q c =>
    simp only [step, reset] at h
    cases h
    rw [setBuf_data hr]; simp [puts]
  | send q c d t =>
    simp only [step, send] at h
    split at h
    · cases h; simp [puts]
    · split at h
      · cases h
      · cases h; rw [setBuf_data hr]; simp [puts, post, setInbox]
  | isend q c d t =>
    simp only [step, isend] at h
    split at h
    · cases h; simp [puts]
    · split at h
      · cases h
      · cases h
        have := setBuf_data (w := setLive (post q d t (w.buf q c).data w) q ((w.next q, c) :: w.live q))
          (x := { w.buf q c with data := [], req := some (w.next q) }) hr
        simp only [this]
        simp [puts, post, setInbox, setLive]
  | get q c s t e =>
    simp only [step] at h
    rcases get_eq q c s t e [] w with ⟨h1, _⟩ | ⟨m, r, _, _, _, he⟩
    · rw [get, h1] at h; cases h
    · rw [get, he] at h
      split at h
      · cases h
      · cases h; rw [setBuf_data hr]; simp [puts, setInbox]
  | srStart q c d t =>
    simp only [step, srStart] at h
    split at h
    · cases h; simp [puts]
    · split at h
      · cases h
      · cases h; simp [puts, post, setInbox]
  | srEnd q c d st s t e f x y =>
    simp only [step, srEnd] at h
    split at h
    · cases h; simp [puts]
    · split at h
      · cases h
      · split at h
        · cases h
        · simp only [recv] at h
          split at h
          · cases h
          · cases h
          · rename_i h1
            split at h
            · cases h
            · cases h
              rw [setBuf_data hr]
              split at h1
              · cases h1
              · split at h1
                · simp only [Option.some.injEq, Prod.mk.injEq] at h1
                  rw [← h1.2]; simp [puts, setInbox]
                · simp at h1
  | wait q c => rw [wait_data p b h]; simp [puts]
  | sent q c f =>
    simp only [step, sent] at h
    split at h
    · split at h
      · cases h; simp [puts]
      · cases h
    · split at h
      · split at h
        · rw [wait_data p b h]; simp [puts]
        · cases h; simp [puts]
      · cases h
  | multi q bs cs =>
    simp only [step, multi] at h
    split at h
    · cases h; simp [puts, setLive]
    · cases h
  | destroy q c =>
    simp only [step, destroy] at h
    split at h
    · rename_i w1 hw
      split at h
      · cases h
      · cases h; rw [setBuf_data hr, wait_data p b hw]; simp [puts]
    · rename_i hw; exact absurd h (hw w')

/-- **C113**: a message holds what was packed into its buffer since that was empty, whatever other processes and other buffers do; sending and
`reset` leave it empty. -/
theorem C113_packed (np : Nat) (p b : Nat) : ∀ (as : List Act) (w w' : World), run np w as = .ok w' → (∀ a ∈ as, ¬ Renews p b a) →
    (w'.buf p b).data = (w.buf p b).data ++ puts p b as ∧
    (∀ d t w2, d ≠ p → (send np p b d t w' = .ok w2 ∨ isend np p b d t w' = .ok w2) →
      w2.inbox d = w'.inbox d ++ [⟨p, t, (w.buf p b).data ++ puts p b as⟩] ∧ (w2.buf p b).data = []) ∧
    ∀ w2, reset p b w' = .ok w2 → (w2.buf p b).data = []
  | as, w, w', h, hr => by
    have key : ∀ (as : List Act) (w w' : World), run np w as = .ok w' → (∀ a ∈ as, ¬ Renews p b a) →
        (w'.buf p b).data = (w.buf p b).data ++ puts p b as := by
      intro as
      induction as with
      | nil => intro w w' h _; cases h; simp [puts]
      | cons a as ih =>
        intro w w' h hr
        rw [run] at h
        cases hs : step np w a with
        | ok w1 =>
          rw [hs] at h
          rw [ih w1 w' h fun x hx => hr x (by simp [hx]), step_data hs (hr a (by simp))]
          cases a <;> simp [puts]
          split <;> simp
        | blocked => rw [hs] at h; cases h
        | bad => rw [hs] at h; cases h
    have e := key as w w' h hr
    refine ⟨e, ?_, ?_⟩
    · intro d t w2 hd h2
      rw [← e]
      rcases h2 with h2 | h2
      · simp only [send, if_neg hd] at h2
        split at h2
        · cases h2
        · cases h2; simp [setBuf, post, setInbox]
      · simp only [isend, if_neg hd] at h2
        split at h2
        · cases h2
        · cases h2; simp [setBuf, post, setInbox, setLive]
    · intro w2 h2
      cases h2; simp [setBuf]

/-- Sending to a process that does not exist is an error of the MPI library. -/
theorem C114_fails_process (np p b d t : Nat) (w : World) (hd : d ≠ p) (h : np ≤ d) :
    send np p b d t w = .bad ∧ isend np p b d t w = .bad ∧ srStart np p b d t w = .bad := by
  simp [send, isend, srStart, hd, h]

/-- A call on an array completes the requests of the buffers it finds completed, and no others. -/
theorem C114_array_partial (p : Nat) (bs cs : List Nat) (w w' : World) (h : multi p bs cs w = .ok w') (x : Nat × Nat) :
    x ∈ w'.live p ↔ x ∈ w.live p ∧ ∀ b ∈ bs, b ∈ cs → (w.buf p b).req ≠ some x.1 := by
  simp only [multi] at h
  split at h
  · cases h
    simp only [setLive, if_true, List.mem_filter, Bool.not_eq_true', ← Bool.not_eq_true, List.any_eq_true, Bool.and_eq_true,
      List.contains_iff_mem, beq_iff_eq, not_exists, not_and, ne_eq]
    exact ⟨fun g => ⟨g.1, fun b h1 h2 h3 => g.2 b h2 h1 h3⟩, fun g => ⟨g.1, fun b h2 h1 h3 => g.2 b h1 h2 h3⟩⟩
  · cases h

/-! ### Cases -/

/-- Two messages from 0 to 1, the second of which is asked for first; and one from 2. -/
private def acts : List Act :=
  [.put 0 0 [1, 2], .send 0 0 1 5, .put 0 0 [3], .isend 0 0 1 6, .put 2 0 [9], .send 2 0 1 5,
   .get 1 0 none (some 6) 0, .get 1 1 none none 2, .wait 0 0, .get 1 2 (some 0) none 0, .destroy 0 0]

example : (match run 3 start acts with
    | .ok w => some ((w.buf 1 0).data, (w.buf 1 0).proc, (w.buf 1 0).tag, (w.buf 1 1).data, (w.buf 1 2).data)
    | _ => none) = some ([3], 0, 6, [9], [1, 2]) := by decide

example : Careful 3 (fun _ _ => false) acts := by simp [acts, Careful, allowed, after]

/-- An array: all are waited for, and then the array is destroyed. -/
example : (match run 2 start [.put 0 0 [1], .isend 0 0 1 0, .multi 0 [0, 1] [0, 1]] with | .ok _ => true | _ => false) = true ∧
    (match run 2 start [.put 0 0 [1], .isend 0 0 1 0, .multi 0 [0, 1] [0, 1], .destroy 0 0] with | .bad => true | _ => false) = true := by decide

/-- The default arguments of send_recv. -/
example : (match run 3 start [.put 2 0 [7, 7], .send 2 0 0 1, .put 1 0 [5], .srStart 1 0 0 1, .srStart 0 0 1 1, .srEnd 0 0 1 1 none none 1 2 0 0] with
    | .bad => true | _ => false) = true := by decide

/-- The exchange of the manual, between two processes. -/
example : ∃ w S H, Exec 2 start [.put 0 0 [1], .isend 0 0 1 5, .put 1 0 [2], .isend 1 0 0 5, .get 1 1 none (some 5) 0, .get 0 1 none (some 5) 1] w S H ∧
    sources 1 5 H = [0] ∧ between 0 1 5 S = [[1]] ∧ (∀ p, (between p 1 5 S).length ≤ 1) ∧ ∀ p ∈ sources 1 5 H, p < 2 := by
  refine ⟨_, _, _, .cons trivial rfl (.cons trivial rfl (.cons trivial rfl (.cons trivial rfl (.cons trivial rfl (.cons trivial rfl (.nil _)))))),
    by decide, by decide, ?_, by decide⟩
  intro p
  show (between p 1 5 [(0, 1, 5, [1]), (1, 0, 5, [2])]).length ≤ 1
  cases p <;> simp [between]

/-- Packed in two parts, with another process sending in between. -/
example : ∃ w, run 3 start [.put 2 0 [1], .put 1 0 [7], .send 1 0 0 3, .put 2 0 [2, 3], .wait 2 0] = .ok w ∧
    puts 2 0 [.put 2 0 [1], .put 1 0 [7], .send 1 0 0 3, .put 2 0 [2, 3], .wait 2 0] = [1, 2, 3] ∧
    ∀ a ∈ [Act.put 2 0 [1], .put 1 0 [7], .send 1 0 0 3, .put 2 0 [2, 3], .wait 2 0], ¬ Renews 2 0 a :=
  ⟨_, rfl, by decide, by intro a ha; simp at ha; rcases ha with rfl | rfl | rfl | rfl | rfl <;> simp [Renews]⟩

end Verif.MpiMsg
