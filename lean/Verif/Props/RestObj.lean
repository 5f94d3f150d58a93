import Verif.RestObj
import Verif.Props.Rest
import Verif.Props.RestReg
/-
C88: paths into objects registered with the REST service.
-/
namespace Verif.Rest
open OMap EnumKeys
open Verif.Json (J R Lib Oc getInt getReal getBool getStr dot)

/-! ### What is meant -/

/-- Names after one another, each after a dot. -/
def C88.rd : List Str → Str
  | [] => []
  | n :: ns => dot :: n ++ C88.rd ns

/-- An identifier: not empty, no dot in it, no `@` in front. -/
structure C88.Ident (n : Str) : Prop where
  ne : n ≠ []
  nodot : dot ∉ n
  noat : n.head? ≠ some 64

/-- A class has, of its own or from a base, a member of that name. -/
inductive C88.Has : Ms → Str → O → Prop
  | here {n o r} : C88.Has (.mem n o r) n o
  | later {n o r n' o'} : C88.Has r n o → C88.Has (.mem n' o' r) n o
  | inBase {n o r a ms} : C88.Has ms n o → C88.Has (.base (.cls a ms) r) n o
  | afterBase {n o r o'} : C88.Has r n o → C88.Has (.base o' r) n o

mutual
/-- All the names of members of a class, bases included. -/
def C88.names : Ms → List Str
  | .nil => []
  | .base o r => C88.namesO o ++ C88.names r
  | .mem n _ r => n :: C88.names r
def C88.namesO : O → List Str
  | .cls _ ms => C88.names ms
  | _ => []
end

mutual
/-- Names are identifiers, bases are classes, and no member hides one of a base or has the name of a member
of another base. -/
def C88.Ok : O → Prop
  | .cls _ ms => (C88.names ms).Nodup ∧ C88.OkM ms
  | _ => True
def C88.OkM : Ms → Prop
  | .nil => True
  | .base o r => (∃ a ms, o = .cls a ms) ∧ C88.Ok o ∧ C88.OkM r
  | .mem n o r => C88.Ident n ∧ C88.Ok o ∧ C88.OkM r
end

/-- From an object, names lead to an object: members of classes, through smart pointers. -/
inductive C88.Reach (env : Env) : O → List Str → O → Prop
  | here {o} : C88.Reach env o [] o
  | mem {a ms n o ns o'} : C88.Has ms n o → C88.Reach env o ns o' → C88.Reach env (.cls a ms) (n :: ns) o'
  | deref {a o n ns o'} : env.target a = some o → C88.Reach env o (n :: ns) o' →
      C88.Reach env (.ptr a) (n :: ns) o'

/-- From an object, names lead to a class or a simple variable that has no member of the next name. -/
inductive C88.Lost (env : Env) : O → List Str → Prop
  | cls {a ms n ns} : (∀ o, ¬ C88.Has ms n o) → C88.Lost env (.cls a ms) (n :: ns)
  | var {k a n ns} : C88.Lost env (.var k a) (n :: ns)
  | mem {a ms n o ns} : C88.Has ms n o → C88.Lost env o ns → C88.Lost env (.cls a ms) (n :: ns)
  | deref {a o ns} : env.target a = some o → C88.Lost env o ns → C88.Lost env (.ptr a) ns

open C88

/-! ### Names -/

theorem C88.rd_append (a c : List Str) : rd (a ++ c) = rd a ++ rd c := by
  induction a with
  | nil => rfl
  | cons n a ih => simp [rd, ih]

private theorem dot_split {a c : Str} {x y : Str} (ha : dot ∉ a) (hc : dot ∉ c)
    (hx : x = [] ∨ x.head? = some dot) (hy : y = [] ∨ y.head? = some dot) (h : a ++ x = c ++ y) :
    a = c ∧ x = y := by
  induction a generalizing c with
  | nil =>
    cases c with
    | nil => exact ⟨rfl, h⟩
    | cons e c =>
      exfalso
      simp only [List.nil_append, List.cons_append] at h
      subst h
      rcases hx with hx | hx
      · cases hx
      · simp at hx; subst hx; simp at hc
  | cons e a ih =>
    cases c with
    | nil =>
      exfalso
      simp only [List.nil_append, List.cons_append] at h
      subst h
      rcases hy with hy | hy
      · cases hy
      · simp at hy; subst hy; simp at ha
    | cons f c =>
      simp only [List.cons_append, List.cons.injEq] at h
      simp only [List.mem_cons, not_or] at ha hc
      obtain ⟨h1, h2⟩ := ih ha.2 hc.2 h.2
      exact ⟨by rw [h.1, h1], h2⟩

private theorem rd_head (ns : List Str) : rd ns = [] ∨ (rd ns).head? = some dot := by
  cases ns with
  | nil => exact .inl rfl
  | cons n ns => exact .inr (by simp [rd])

private theorem append_head {x y : Str} (hx : x = [] ∨ x.head? = some dot) (hy : y = [] ∨ y.head? = some dot) :
    x ++ y = [] ∨ (x ++ y).head? = some dot := by
  cases x with
  | nil => simpa using hy
  | cons e x => simpa using hx

/-- A beginning of names, ending at a dot or the end, is that of some of the names. -/
private theorem rd_prefix {ks ns : List Str} {rest : Str} (hk : ∀ n ∈ ks, Ident n) (hn : ∀ n ∈ ns, dot ∉ n)
    (hr : rest = [] ∨ rest.head? = some dot) (h : rd ks ++ rest = rd ns) : ∃ ts, ns = ks ++ ts ∧ rest = rd ts := by
  induction ks generalizing ns with
  | nil => exact ⟨ns, rfl, h⟩
  | cons k ks ih =>
    cases ns with
    | nil => simp [rd] at h
    | cons n ns =>
      simp only [rd, List.cons_append, List.append_assoc, List.cons.injEq, true_and] at h
      obtain ⟨e1, e2⟩ := dot_split (hk k (by simp)).nodot (hn n (by simp))
        (append_head (rd_head ks) hr) (rd_head ns) h
      obtain ⟨ts, e3, e4⟩ := ih (fun x hx => hk x (by simp [hx])) (fun x hx => hn x (by simp [hx])) e2
      exact ⟨ts, by rw [e1, e3]; rfl, e4⟩

theorem C88.rd_inj {ks ns : List Str} (hk : ∀ n ∈ ks, Ident n) (hn : ∀ n ∈ ns, Ident n)
    (h : rd ks = rd ns) : ks = ns := by
  obtain ⟨ts, e1, e2⟩ := rd_prefix hk (fun n h => (hn n h).nodot) (rest := []) (.inl rfl) (by simpa using h)
  cases ts with
  | nil => simpa using e1.symm
  | cons t ts => simp [rd] at e2

/-! ### Members -/

theorem C88.has_names {ms : Ms} {n : Str} {o : O} (h : Has ms n o) : n ∈ names ms := by
  induction h with
  | here => simp [names]
  | later _ ih => simp [names, ih]
  | inBase _ ih => simp [names, namesO, ih]
  | afterBase _ ih => simp [names, ih]

theorem C88.names_has : ∀ {ms : Ms} {n : Str}, n ∈ names ms → ∃ o, Has ms n o
  | .nil, n, h => by simp [names] at h
  | .mem n' o r, n, h => by
    simp only [names, List.mem_cons] at h
    rcases h with h | h
    · subst h; exact ⟨_, .here⟩
    · obtain ⟨o', h'⟩ := names_has h; exact ⟨o', .later h'⟩
  | .base o r, n, h => by
    simp only [names, List.mem_append] at h
    rcases h with h | h
    · match o, h with
      | .cls a ms, h =>
        simp only [namesO] at h
        obtain ⟨o', h'⟩ := names_has h
        exact ⟨o', .inBase h'⟩
      | .var _ _, h => simp [namesO] at h
      | .enum _ _ _ _, h => simp [namesO] at h
      | .ptr _, h => simp [namesO] at h
    · obtain ⟨o', h'⟩ := names_has h; exact ⟨o', .afterBase h'⟩

private theorem has_det {ms : Ms} {n : Str} {o o' : O} (h : Has ms n o) (h' : Has ms n o')
    (hd : (names ms).Nodup) : o = o' := by
  induction h with
  | here =>
    cases h' with
    | here => rfl
    | later h' =>
      simp only [names, List.nodup_cons] at hd
      exact absurd (has_names h') hd.1
  | later h ih =>
    simp only [names, List.nodup_cons] at hd
    cases h' with
    | here => exact absurd (has_names h) hd.1
    | later h' => exact ih h' hd.2
  | inBase h ih =>
    simp only [names, namesO, List.nodup_append] at hd
    cases h' with
    | inBase h' => exact ih h' hd.1
    | afterBase h' => exact absurd rfl (hd.2.2 _ (has_names h) _ (has_names h'))
  | afterBase h ih =>
    simp only [names, List.nodup_append] at hd
    cases h' with
    | inBase h' => exact absurd rfl (hd.2.2 _ (by simpa [namesO] using has_names h') _ (has_names h))
    | afterBase h' => exact ih h' hd.2.1

theorem C88.has_ok {ms : Ms} {n : Str} {o : O} (h : Has ms n o) (hk : OkM ms) : Ident n ∧ Ok o := by
  induction h with
  | here => simp only [OkM] at hk; exact ⟨hk.1, hk.2.1⟩
  | later _ ih => simp only [OkM] at hk; exact ih hk.2.2
  | inBase _ ih =>
    simp only [OkM, Ok] at hk
    exact ih hk.2.1.2
  | afterBase _ ih => simp only [OkM] at hk; exact ih hk.2.2

/-- Names that lead to an object without passing a pointer. -/
inductive C88.SR : O → List Str → O → Prop
  | here {o} : SR o [] o
  | mem {a ms n o ns o'} : Has ms n o → SR o ns o' → SR (.cls a ms) (n :: ns) o'

theorem C88.sr_ok {o : O} {ns : List Str} {o' : O} (h : SR o ns o') (hk : Ok o) :
    (∀ n ∈ ns, Ident n) ∧ Ok o' := by
  induction h with
  | here => exact ⟨by simp, hk⟩
  | mem hh _ ih =>
    simp only [Ok] at hk
    obtain ⟨h1, h2⟩ := has_ok hh hk.2
    obtain ⟨h3, h4⟩ := ih h2
    refine ⟨?_, h4⟩
    intro x hx
    rcases List.mem_cons.1 hx with rfl | hx
    · exact h1
    · exact h3 x hx

theorem C88.sr_snoc {o : O} {ns : List Str} {a : Nat} {ms : Ms} {n : Str} {o' : O}
    (h : SR o ns (.cls a ms)) (hh : Has ms n o') : SR o (ns ++ [n]) o' := by
  generalize he : O.cls a ms = c at h
  induction h with
  | here => subst he; exact .mem hh .here
  | mem h1 _ ih => exact .mem h1 (ih he)

theorem C88.sr_split {o : O} {ks ts : List Str} {o' o'' : O} (h : SR o ks o') (h' : SR o (ks ++ ts) o'')
    (hk : Ok o) : SR o' ts o'' := by
  induction h with
  | here => exact h'
  | mem hh _ ih =>
    simp only [List.cons_append] at h'
    cases h' with
    | mem hh' h' =>
      simp only [Ok] at hk
      have := has_det hh hh' hk.1
      subst this
      exact ih h' (has_ok hh hk.2).2

/-! ### What is registered -/

mutual
theorem C88.regs_names : ∀ (o : O) (d : Str) (e : Str × Node), Ok o → e ∈ regs d o →
      (∃ ks o', SR o ks o' ∧ e.1 = d ++ rd ks) ∨ ∃ tn, e.1 = b "@enum." ++ tn
  | .var k a, d, e, _, h => by
    simp only [regs, List.mem_singleton] at h
    exact .inl ⟨[], _, .here, by simp [h, rd]⟩
  | .enum tn u k a, d, e, _, h => by
    simp only [regs, List.mem_cons, List.not_mem_nil, or_false] at h
    rcases h with h | h
    · exact .inl ⟨[], _, .here, by simp [h, rd]⟩
    · exact .inr ⟨tn, by simp [h]⟩
  | .cls a ms, d, e, hk, h => by
    simp only [regs, List.mem_append, List.mem_singleton] at h
    simp only [Ok] at hk
    rcases h with h | h
    · rcases regsM_names ms d e hk.2 h with ⟨n, oc, ks, o', h1, h2, h3⟩ | h | h
      · exact .inl ⟨n :: ks, o', .mem h1 h2, h3⟩
      · exact .inl ⟨[], _, .here, by simp [h, rd]⟩
      · exact .inr h
    · exact .inl ⟨[], _, .here, by simp [h, rd]⟩
  | .ptr a, d, e, _, h => by
    simp only [regs, List.mem_singleton] at h
    exact .inl ⟨[], _, .here, by simp [h, rd]⟩
theorem C88.regsM_names : ∀ (ms : Ms) (d : Str) (e : Str × Node), OkM ms → e ∈ regsM d ms →
      (∃ n oc ks o', Has ms n oc ∧ SR oc ks o' ∧ e.1 = d ++ rd (n :: ks)) ∨ e.1 = d ∨
        ∃ tn, e.1 = b "@enum." ++ tn
  | .nil, d, e, _, h => by
    simp [regsM] at h
  | .base o r, d, e, hk, h => by
    simp only [regsM, List.mem_append] at h
    simp only [OkM] at hk
    rcases h with h | h
    · rcases regs_names o d e hk.2.1 h with ⟨ks, o', h1, h2⟩ | h
      · cases h1 with
        | here => exact .inr (.inl (by simpa [rd] using h2))
        | mem hh h1 => exact .inl ⟨_, _, _, _, .inBase hh, h1, h2⟩
      · exact .inr (.inr h)
    · rcases regsM_names r d e hk.2.2 h with ⟨n, oc, ks, o', h1, h2, h3⟩ | h
      · exact .inl ⟨n, oc, ks, o', .afterBase h1, h2, h3⟩
      · exact .inr h
  | .mem n o r, d, e, hk, h => by
    simp only [regsM, List.mem_append] at h
    simp only [OkM] at hk
    rcases h with h | h
    · rcases regs_names o _ e hk.2.1 h with ⟨ks, o', h1, h2⟩ | h
      · exact .inl ⟨n, o, ks, o', .here, h1, by simp [h2, rd]⟩
      · exact .inr (.inr h)
    · rcases regsM_names r d e hk.2.2 h with ⟨n, oc, ks, o', h1, h2, h3⟩ | h
      · exact .inl ⟨n, oc, ks, o', .later h1, h2, h3⟩
      · exact .inr h
end

/-- Is it registered by `emplace`? -/
def C88.prim : O → Bool
  | .var _ _ => true
  | _ => false

/-- The entry under a name that counts. -/
def C88.Counts (rs : List (Str × Node)) (p : Str) (o : O) : Prop :=
  ∃ pre post, rs = pre ++ (p, .obj o) :: post ∧ (∀ e ∈ post, e.1 ≠ p) ∧ (prim o = true → ∀ e ∈ pre, e.1 ≠ p)

theorem C88.counts_left {rs : List (Str × Node)} {p : Str} {o : O} (h : Counts rs p o) (l : List (Str × Node))
    (hl : ∀ e ∈ l, e.1 ≠ p) : Counts (l ++ rs) p o := by
  obtain ⟨pre, post, e1, e2, e3⟩ := h
  refine ⟨l ++ pre, post, by simp [e1], e2, fun hp e he => ?_⟩
  rcases List.mem_append.1 he with h | h
  · exact hl e h
  · exact e3 hp e h

theorem C88.counts_right {rs : List (Str × Node)} {p : Str} {o : O} (h : Counts rs p o) (l : List (Str × Node))
    (hl : ∀ e ∈ l, e.1 ≠ p) : Counts (rs ++ l) p o := by
  obtain ⟨pre, post, e1, e2, e3⟩ := h
  refine ⟨pre, post ++ l, by simp [e1], fun e he => ?_, e3⟩
  rcases List.mem_append.1 he with h | h
  · exact e2 e h
  · exact hl e h

theorem C88.enum_ne {d : Str} {ks : List Str} {tn : Str} (hd : d.head? ≠ some 64) :
    b "@enum." ++ tn ≠ d ++ rd ks := by
  intro h
  have h1 := congrArg List.head? h
  have h2 : (b "@enum." ++ tn).head? = some 64 := rfl
  rw [h2] at h1
  cases d with
  | nil =>
    cases ks with
    | nil => simp [rd] at h1
    | cons k ks => simp [rd, dot] at h1
  | cons e d => simp at h1; simp [← h1] at hd

theorem C88.head_dot {d n : Str} (hd : d.head? ≠ some 64) : (d ++ dot :: n).head? ≠ some 64 := by
  cases d with
  | nil => simp [dot]
  | cons e d => simpa using hd

theorem C88.sr_idents {o : O} {ns : List Str} {o' : O} (h : SR o ns o') (hk : Ok o) : ∀ n ∈ ns, Ident n :=
  (sr_ok h hk).1

/-- Names of members of a class are not those registered for members of other names. -/
private theorem regsM_ne {ms : Ms} {d n : Str} {ns : List Str} (hd : d.head? ≠ some 64) (hk : OkM ms)
    (hn : n ∉ names ms) (hi : ∀ x ∈ n :: ns, Ident x) : ∀ e ∈ regsM d ms, e.1 ≠ d ++ rd (n :: ns) := by
  intro e he h
  rcases regsM_names ms d e hk he with ⟨n', oc, ks, o', h1, h2, h3⟩ | h3 | ⟨tn, h3⟩
  · rw [h] at h3
    have h4 := rd_inj hi (ns := n' :: ks) (by
      intro x hx
      rcases List.mem_cons.1 hx with rfl | hx
      · exact (has_ok h1 hk).1
      · exact sr_idents h2 (has_ok h1 hk).2 x hx) (List.append_cancel_left h3)
    simp only [List.cons.injEq] at h4
    exact hn (h4.1 ▸ has_names h1)
  · rw [h] at h3
    have := congrArg List.length h3
    simp [rd] at this
  · rw [h] at h3; exact enum_ne hd h3.symm

theorem C88.regs_ne {o : O} {d n : Str} {ns : List Str} (hd : d.head? ≠ some 64) (hk : Ok o)
    (hn : n ∉ namesO o) (hi : ∀ x ∈ n :: ns, Ident x) : ∀ e ∈ regs d o, e.1 ≠ d ++ rd (n :: ns) := by
  intro e he h
  rcases regs_names o d e hk he with ⟨ks, o', h1, h3⟩ | ⟨tn, h3⟩
  · rw [h] at h3
    have h4 := rd_inj hi (sr_idents h1 hk) (List.append_cancel_left h3)
    cases h1 with
    | here => cases h4
    | mem hh h1 =>
      simp only [List.cons.injEq] at h4
      exact hn (h4.1 ▸ (by simpa [namesO] using has_names hh))
  · rw [h] at h3; exact enum_ne hd h3.symm

private theorem countsM {ms : Ms} {n : Str} {oc : O} (h : Has ms n oc) {d : Str} {ns : List Str} {o' : O}
    (hd : d.head? ≠ some 64) (hk : OkM ms) (hnd : (names ms).Nodup) (hi : ∀ x ∈ n :: ns, Ident x)
    (hc : Counts (regs (d ++ dot :: n) oc) (d ++ rd (n :: ns)) o') :
    Counts (regsM d ms) (d ++ rd (n :: ns)) o' := by
  induction h with
  | here =>
    simp only [names, List.nodup_cons, OkM] at hnd hk
    simp only [regsM]
    exact counts_right hc _ (regsM_ne hd hk.2.2 hnd.1 hi)
  | @later n o r n' o1 hh ih =>
    simp only [names, List.nodup_cons, OkM] at hnd hk
    simp only [regsM]
    refine counts_left (ih hk.2.2 hnd.2 hi hc) _ ?_
    intro e he
    have : ∀ e ∈ regsM d (.mem n' o1 .nil), e.1 ≠ d ++ rd (n :: ns) := by
      refine regsM_ne hd (by simp only [OkM]; exact ⟨hk.1, hk.2.1, trivial⟩) ?_ hi
      simp only [names, List.mem_singleton]
      intro h; subst h; exact hnd.1 (has_names hh)
    exact this e (by simpa [regsM] using he)
  | @inBase n o r a ms hh ih =>
    simp only [names, namesO, List.nodup_append, OkM, Ok] at hnd hk
    simp only [regsM, regs]
    refine counts_right (counts_right (ih hk.2.1.2 hk.2.1.1 hi hc) _ ?_) _ ?_
    · intro e he h
      rw [List.mem_singleton] at he
      subst he
      have := congrArg List.length h
      simp [rd] at this
    · refine regsM_ne hd hk.2.2 ?_ hi
      intro h
      exact hnd.2.2 _ (has_names hh) _ h rfl
  | @afterBase n o r o1 hh ih =>
    simp only [names, List.nodup_append, OkM] at hnd hk
    simp only [regsM]
    refine counts_left (ih hk.2.2 hnd.2.1 hi hc) _ (regs_ne hd hk.2.1 ?_ hi)
    intro h
    exact hnd.2.2 _ h _ (has_names hh) rfl

theorem C88.counts {o : O} {ns : List Str} {o' : O} (h : SR o ns o') (hk : Ok o) {d : Str}
    (hd : d.head? ≠ some 64) : Counts (regs d o) (d ++ rd ns) o' := by
  induction h generalizing d with
  | @here o =>
    simp only [rd, List.append_nil]
    cases o with
    | var k a => exact ⟨[], [], rfl, by simp, by simp⟩
    | enum tn u k a =>
      refine ⟨[], [(b "@enum." ++ tn, .enums k)], rfl, ?_, by simp⟩
      intro e he h
      rw [List.mem_singleton] at he
      subst he
      exact enum_ne (ks := []) (tn := tn) hd (by simpa [rd] using h)
    | cls a ms => exact ⟨regsM d ms, [], rfl, by simp, by simp [prim]⟩
    | ptr a => exact ⟨[], [], rfl, by simp, by simp⟩
  | @mem a ms n oc ns o' hh hr ih =>
    have hk' := hk
    simp only [Ok] at hk'
    have hid := sr_idents (SR.mem (a := a) hh hr) hk
    have hc := ih (has_ok hh hk'.2).2 (head_dot (n := n) hd)
    have : d ++ dot :: n ++ rd ns = d ++ rd (n :: ns) := by simp [rd]
    rw [this] at hc
    simp only [regs]
    refine counts_right (countsM hh hd hk'.2 hk'.1 hid hc) _ ?_
    intro e he h
    rw [List.mem_singleton] at he
    subst he
    have := congrArg List.length h
    simp [rd] at this

/-! ### Finding an entry -/

private theorem opsFrom_append (i : Nat) (a c : List (Str × Node)) :
    opsFrom i (a ++ c) = opsFrom i a ++ opsFrom (i + a.length) c := by
  induction a generalizing i with
  | nil => simp [opsFrom]
  | cons e a ih =>
    simp only [List.cons_append, opsFrom, ih, List.length_cons]
    rw [show i + 1 + a.length = i + (a.length + 1) by omega]

private theorem opOf_name (i : Nat) (e : Str × Node) : (opOf i e).name = e.1 := by
  match e with
  | (d, .obj (.var _ _)) => rfl
  | (d, .obj (.enum _ _ _ _)) => rfl
  | (d, .obj (.cls _ _)) => rfl
  | (d, .obj (.ptr _)) => rfl
  | (d, .enums _) => rfl

private theorem opsFrom_names (i : Nat) (rs : List (Str × Node)) : ∀ op ∈ opsFrom i rs, ∃ e ∈ rs, op.name = e.1 := by
  induction rs generalizing i with
  | nil => simp [opsFrom]
  | cons e rs ih =>
    intro op h
    simp only [opsFrom, List.mem_cons] at h
    rcases h with rfl | h
    · exact ⟨e, by simp, opOf_name i e⟩
    · obtain ⟨e', h1, h2⟩ := ih _ op h
      exact ⟨e', by simp [h1], h2⟩

def C88.wrap : O → Bool
  | .ptr _ => true
  | _ => false

theorem C88.find_counts {rs : List (Str × Node)} {p : Str} {o : O} (h : Counts rs p o) :
    ∃ i, mfind strLt p (regOf rs) = some (.obj i (wrap o)) ∧ rs[i]? = some (p, .obj o) := by
  obtain ⟨pre, post, rfl, h2, h3⟩ := h
  refine ⟨pre.length, ?_, by simp⟩
  have hpost : ∀ op ∈ opsFrom (0 + pre.length + 1) post, op.name = p → ∃ j, op = .prim p j := by
    intro op ho hp
    obtain ⟨e, h4, h5⟩ := opsFrom_names _ _ op ho
    exact absurd (h5.symm.trans hp) (h2 e h4)
  simp only [regOf, opsFrom_append, opsFrom]
  cases o with
  | var k a =>
    simp only [opOf, Nat.zero_add, wrap] at hpost ⊢
    refine C35_number_partial _ _ p pre.length ?_ hpost
    intro op ho hp
    obtain ⟨e, h4, h5⟩ := opsFrom_names _ _ op ho
    exact h3 rfl e h4 (h5.symm.trans hp)
  | enum tn u k a => simp only [opOf, Nat.zero_add, wrap] at hpost ⊢; exact C35_object _ _ p pre.length _ hpost
  | cls a ms => simp only [opOf, Nat.zero_add, wrap] at hpost ⊢; exact C35_object _ _ p pre.length _ hpost
  | ptr a => simp only [opOf, Nat.zero_add, wrap] at hpost ⊢; exact C35_object _ _ p pre.length _ hpost

theorem C88.find_none {rs : List (Str × Node)} {p : Str} (h : ∀ e ∈ rs, e.1 ≠ p) :
    mfind strLt p (regOf rs) = none := by
  cases hf : mfind strLt p (regOf rs) with
  | none => rfl
  | some e =>
    obtain ⟨op, h1, h2⟩ := (C35_registered (opsFrom 0 rs) p).1 (by
      show (mfind strLt p (regOf rs)).isSome = true
      rw [hf]; rfl)
    obtain ⟨e', h3, h4⟩ := opsFrom_names _ _ op h1
    exact absurd (h4.symm.trans h2) (h e' h3)

/-! ### Dispatch -/

/-- An object registered under a name, among other things that have nothing to do with it. -/
structure C88.Root (rs : List (Str × Node)) (d : Str) (o : O) : Prop where
  split : ∃ l r, rs = l ++ regs d o ++ r ∧ ∀ e, e ∈ l ∨ e ∈ r → (∃ tn, e.1 = b "@enum." ++ tn) ∨
    ∀ ns rest, (∀ n ∈ ns, dot ∉ n) → (rest = [] ∨ rest.head? = some dot) → e.1 ++ rest ≠ d ++ rd ns
  ok : Ok o
  head : d.head? ≠ some 64

theorem C88.root_names {rs : List (Str × Node)} {d : Str} {o : O} (h : Root rs d o) {ns : List Str}
    (hn : ∀ n ∈ ns, dot ∉ n) (hne : d ++ rd ns ≠ []) {p rest : Str} (hr : rest = [] ∨ rest.head? = some dot)
    (hp : p ++ rest = d ++ rd ns) (e : Str × Node) (he : e ∈ rs) (hep : e.1 = p) :
    ∃ ks ts o', SR o ks o' ∧ ns = ks ++ ts ∧ p = d ++ rd ks ∧ rest = rd ts := by
  have hat : ∀ tn, p ≠ b "@enum." ++ tn := by
    intro tn h1
    rw [h1, List.append_assoc] at hp
    exact enum_ne h.head hp
  obtain ⟨l, r, rfl, hlr⟩ := h.split
  have hside : e ∈ l ∨ e ∈ r → False := by
    intro h1
    rcases hlr e h1 with ⟨tn, h2⟩ | h2
    · exact hat tn (hep.symm.trans h2)
    · exact h2 ns rest hn hr (by rw [hep]; exact hp)
  rcases List.mem_append.1 he with he | he
  · rcases List.mem_append.1 he with he | he
    · exact absurd (.inl he) hside
    · rcases regs_names o d e h.ok he with ⟨ks, o', h1, h2⟩ | ⟨tn, h2⟩
      · rw [hep] at h2
        rw [h2, List.append_assoc] at hp
        obtain ⟨ts, h3, h4⟩ := rd_prefix (sr_idents h1 h.ok) hn hr (List.append_cancel_left hp)
        exact ⟨ks, ts, o', h1, h3, h2, h4⟩
      · exact absurd (hep.symm.trans h2) (hat tn)
  · exact absurd (.inr he) hside

private theorem not_enum {d : Str} {ns : List Str} (hd : d.head? ≠ some 64) : d ++ rd ns ≠ b "@enum.@list" := by
  intro h
  exact enum_ne (tn := b "@list") hd (by rw [h]; rfl)

private theorem not_meta_head {t : Str} {ts : List Str} (ht : Ident t) : ¬ C33.Meta (rd (t :: ts)) := by
  intro hm
  have h2 : (rd (t :: ts))[1]? = some 64 := by
    rcases hm with hm | hm | hm <;> rw [hm] <;> rfl
  simp only [rd, List.cons_append, List.getElem?_cons_succ] at h2
  cases ht' : t with
  | nil => exact ht.ne ht'
  | cons c t' =>
    rw [ht'] at h2
    simp at h2
    exact ht.noat (by rw [ht', h2]; rfl)

private theorem not_meta {ts : List Str} (h : ∀ n ∈ ts, Ident n) : ¬ C33.Meta (rd ts) := by
  cases ts with
  | nil => simp [C33.Meta, rd, b]
  | cons t ts => exact not_meta_head (h t (by simp))

/-- A path goes to the last object on its way before a pointer, or before a name that is none. -/
theorem C88.dispatch_any {rs : List (Str × Node)} {d : Str} {o : O} (h : Root rs d o) {ks ts : List Str} {o' : O}
    (hs : SR o ks o') (ht : ∀ n ∈ ts, dot ∉ n) (hne : d ++ rd ks ≠ [])
    (hend : ∀ t ts', ts = t :: ts' → t ∉ namesO o') :
    ∃ i, process (regOf rs) (d ++ rd (ks ++ ts)) = C33.answer (.obj i (wrap o')) (rd ts) ∧
      rs[i]? = some (d ++ rd ks, .obj o') := by
  have hks := sr_idents hs h.ok
  have hall : ∀ n ∈ ks ++ ts, dot ∉ n := by
    intro n hn
    rcases List.mem_append.1 hn with h1 | h1
    · exact (hks n h1).nodot
    · exact ht n h1
  have hc : Counts rs (d ++ rd ks) o' := by
    obtain ⟨l, r, rfl, hlr⟩ := h.split
    have hside : ∀ e, e ∈ l ∨ e ∈ r → e.1 ≠ d ++ rd ks := by
      intro e he hq
      rcases hlr e he with ⟨tn, h2⟩ | h2
      · exact enum_ne h.head (h2.symm.trans hq)
      · exact h2 ks [] (fun n hn => (hks n hn).nodot) (.inl rfl) (by simpa using hq)
    exact counts_right (counts_left (counts hs h.ok h.head) l fun e he => hside e (.inl he)) r
      fun e he => hside e (.inr he)
  obtain ⟨i, hi, hri⟩ := find_counts hc
  refine ⟨i, ?_, hri⟩
  have hsp : C33.Split (d ++ rd (ks ++ ts)) (d ++ rd ks) (rd ts) := by
    refine ⟨by rw [rd_append]; simp, ?_⟩
    rcases rd_head ts with h1 | h1
    · exact .inl h1
    · exact .inr (.inl h1)
  have hq : d ++ rd (ks ++ ts) ≠ [] := by
    rw [rd_append]; intro h1
    apply hne
    have := congrArg List.length h1
    simp only [List.length_append, List.length_nil] at this
    apply List.eq_nil_of_length_eq_zero
    simp only [List.length_append]
    omega
  refine C33_longest_partial (not_enum h.head) hne hsp hi ?_
  · intro p' rest' hs' hl
    apply find_none
    intro e he hep
    have hr : rest' = [] ∨ rest'.head? = some dot := by
      rcases hs'.at' with h1 | h1 | h1
      · exact .inl h1
      · exact .inr h1
      · rw [h1] at hl; simp at hl
    obtain ⟨ks', ts', o'', h1, h2, h3, h4⟩ := root_names h hall hq hr hs'.eq.symm e he hep
    have hlen : (rd ks).length < (rd ks').length := by
      rw [h3] at hl
      simp only [List.length_append] at hl
      omega
    have : ∃ t tl, ks' = ks ++ t :: tl := by
      rcases List.append_eq_append_iff.1 h2 with ⟨x, hx, _⟩ | ⟨x, hx, _⟩
      · cases x with
        | nil => rw [hx] at hlen; simp at hlen
        | cons t tl => exact ⟨t, tl, hx⟩
      · rw [hx, rd_append] at hlen
        simp only [List.length_append] at hlen
        omega
    obtain ⟨t, tl, rfl⟩ := this
    have h5 := sr_split hs h1 h.ok
    have h6 : ts = t :: (tl ++ ts') := by
      simpa using h2
    cases h5 with
    | mem hh _ => exact hend _ _ h6 (by simpa [namesO] using has_names hh)

private theorem dispatch {rs : List (Str × Node)} {d : Str} {o : O} (h : Root rs d o) {ks ts : List Str} {o' : O}
    (hs : SR o ks o') (ht : ∀ n ∈ ts, dot ∉ n) (hm : ¬ C33.Meta (rd ts)) (hne : d ++ rd ks ≠ [])
    (hend : ∀ t ts', ts = t :: ts' → t ∉ namesO o') :
    ∃ i, process (regOf rs) (d ++ rd (ks ++ ts)) = .process (.obj i (wrap o')) (rd ts) ∧
      rs[i]? = some (d ++ rd ks, .obj o') := by
  obtain ⟨i, h1, h2⟩ := dispatch_any h hs ht hne hend
  refine ⟨i, ?_, h2⟩
  simp only [C33.Meta, not_or] at hm
  simp [h1, C33.answer, hm]

/-- With the object under no name, and the first name not one of its members, nothing is found. -/
private theorem dispatch_none {o : O} (hk : Ok o) (hw : wrap o = false) {t : Str} {ts : List Str}
    (ht : ∀ n ∈ t :: ts, Ident n) (hend : t ∉ namesO o) :
    process (regOf (regs [] o)) (rd (t :: ts)) = .notFound := by
  have hroot : Root (regs [] o) [] o :=
    ⟨⟨[], [], by simp, by simp⟩, hk, by simp⟩
  refine (C33_not_found (by simpa using not_enum (d := []) (ns := t :: ts) (by simp))).2 ⟨?_, ?_⟩
  · intro p rest hp hs
    apply find_none
    intro e he hep
    have hr : rest = [] ∨ rest.head? = some dot := by
      rcases hs.at' with h1 | h1 | h1
      · exact .inl h1
      · exact .inr h1
      · exact absurd h1 hp
    obtain ⟨ks', ts', o'', h1, h2, h3, h4⟩ := root_names hroot (fun n hn => (ht n hn).nodot) (by simp [rd]) hr
      (by simpa using hs.eq.symm) e he hep
    cases h1 with
    | here => exact hp (by simpa [rd] using h3)
    | mem hh _ =>
      simp only [List.cons_append, List.cons.injEq] at h2
      exact hend (by rw [h2.1]; simpa [namesO] using has_names hh)
  · intro e he
    obtain ⟨i, hi, _⟩ := find_counts (by simpa [rd] using counts (SR.here (o := o)) hk (d := []) (by simp))
    rw [hi] at he
    cases he
    exact ⟨hw, not_meta ht⟩

/-- A pointer under no name takes the whole path. -/
private theorem dispatch_ptr {rs : List (Str × Node)} {a : Nat} (h : Root rs [] (.ptr a)) {t : Str} {ts : List Str}
    (ht : ∀ n ∈ t :: ts, dot ∉ n) (hm : ¬ C33.Meta (rd (t :: ts))) :
    ∃ i, process (regOf rs) (rd (t :: ts)) = .process (.obj i true) (rd (t :: ts)) ∧
      rs[i]? = some ([], .obj (.ptr a)) := by
  have hc : Counts rs ([] ++ rd []) (.ptr a) := by
    obtain ⟨l, r, rfl, hlr⟩ := h.split
    have hside : ∀ e, e ∈ l ∨ e ∈ r → e.1 ≠ [] ++ rd [] := by
      intro e he hq
      rcases hlr e he with ⟨tn, h2⟩ | h2
      · exact enum_ne (d := []) (ks := []) (by simp) (h2.symm.trans hq)
      · exact h2 [] [] (by simp) (.inl rfl) (by simpa using hq)
    exact counts_right (counts_left (counts .here h.ok h.head) l fun e he => hside e (.inl he)) r
      fun e he => hside e (.inr he)
  obtain ⟨i, hi, hri⟩ := find_counts hc
  refine ⟨i, ?_, hri⟩
  rw [C33_root (by simpa using not_enum (d := []) (ns := t :: ts) (by simp)) ?_ (by simpa [rd] using hi) rfl]
  · simp only [C33.Meta, not_or] at hm
    simp [C33.answer, hm, wrap]
  · intro p rest hp hs
    apply find_none
    intro e he hep
    have hr : rest = [] ∨ rest.head? = some dot := by
      rcases hs.at' with h1 | h1 | h1
      · exact .inl h1
      · exact .inr h1
      · exact absurd h1 hp
    obtain ⟨ks', ts', o'', h1, h2, h3, h4⟩ := root_names h ht (by simp [rd]) hr
      (by simpa using hs.eq.symm) e he hep
    cases h1 with
    | here => exact hp (by simpa [rd] using h3)

/-! ### Following a path -/

private theorem proc_at {env : Env} {rs : List (Str × Node)} {d : Str} {o : O} (h : Root rs d o) {ks ts : List Str}
    {o' : O} (hs : SR o ks o') (ht : ∀ n ∈ ts, dot ∉ n) (hm : ¬ C33.Meta (rd ts)) (hne : d ++ rd ks ≠ [])
    (hend : ∀ t ts', ts = t :: ts' → t ∉ namesO o') (n : Nat) (args : J) (m : Mem) :
    regProc env (n + 1) rs (d ++ rd (ks ++ ts)) args m = nodeProc env n (.obj o') (rd ts) args m := by
  obtain ⟨i, h1, h2⟩ := dispatch h hs ht hm hne hend
  simp only [regProc, h1, h2]

theorem C88.root_self {o : O} (hk : Ok o) : Root (regs [] o) [] o :=
  ⟨⟨[], [], by simp, by simp⟩, hk, by simp⟩

/-- Following a path with more names after it: one comes to the object that the path leads to, under some name in some
registry, with those names left. -/
theorem C88.follow_x {env : Env} (hp : ∀ a o, env.target a = some o → Ok o) {o : O} {ns : List Str} {o' : O}
    (hr : Reach env o ns o') {xs : List Str} (hx : ∀ n ∈ xs, dot ∉ n) :
    ∀ (N : Nat) (rs : List (Str × Node)) (d : Str) (root : O) (ks : List Str),
    Root rs d root → SR root ks o → d ++ rd (ks ++ ns) ≠ [] →
    ∃ n0, ∀ n, n0 ≤ n → ∃ n', N ≤ n' ∧ ∃ rs' d' root' ks', Root rs' d' root' ∧ SR root' ks' o' ∧ d' ++ rd ks' ≠ [] ∧
      ∀ args m, regProc env n rs (d ++ rd (ks ++ ns ++ xs)) args m = regProc env n' rs' (d' ++ rd (ks' ++ xs)) args m := by
  induction hr with
  | @here o =>
    intro N rs d root ks h hs hne
    refine ⟨N, fun n hn => ⟨n, hn, rs, d, root, ks, h, hs, by simpa using hne, fun args m => by simp⟩⟩
  | @mem a ms n o ns o' hh _ ih =>
    intro N rs d root ks h hs hne
    have := ih N rs d root (ks ++ [n]) h (sr_snoc hs hh) (by simpa using hne)
    simpa using this
  | @deref a o n ns o' ht hr ih =>
    intro N rs d root ks h hs hne
    have hok := hp a o ht
    obtain ⟨n0, h0⟩ := ih N (regs [] o) [] o [] (root_self hok) .here (by simp [rd])
    have hids : ∀ x ∈ n :: ns, Ident x := by
      have : ∀ {o1 : O} {l : List Str} {o2 : O}, Reach env o1 l o2 → Ok o1 → ∀ x ∈ l, Ident x := by
        intro o1 l o2 hr
        induction hr with
        | here => intro _; simp
        | mem hh _ ih =>
          intro hk x hx
          simp only [Ok] at hk
          rcases List.mem_cons.1 hx with rfl | hx
          · exact (has_ok hh hk.2).1
          · exact ih (has_ok hh hk.2).2 x hx
        | deref h1 _ ih => intro _; exact ih (hp _ _ h1)
      exact this hr hok
    have hall : ∀ x ∈ n :: (ns ++ xs), dot ∉ x := by
      intro x h1
      rw [← List.cons_append] at h1
      rcases List.mem_append.1 h1 with h1 | h1
      · exact (hids x h1).nodot
      · exact hx x h1
    have hmeta : ¬ C33.Meta (rd (n :: (ns ++ xs))) := not_meta_head (hids n (by simp))
    by_cases hz : d ++ rd ks = []
    · simp only [List.append_eq_nil_iff] at hz
      obtain ⟨rfl, hz⟩ := hz
      have : ks = [] := by
        cases ks with
        | nil => rfl
        | cons k ks => simp [rd] at hz
      subst this
      cases hs
      obtain ⟨i, e1, e2⟩ := dispatch_ptr h hall hmeta
      refine ⟨n0 + 3, fun k hk => ?_⟩
      obtain ⟨k, rfl⟩ : ∃ j, k = j + 3 := ⟨k - 3, by omega⟩
      obtain ⟨n', h1, rs', d', root', ks', g1, g2, g3, g4⟩ := h0 k (by omega)
      refine ⟨n', h1, rs', d', root', ks', g1, g2, g3, fun args m => ?_⟩
      rw [← g4]
      simp only [List.nil_append, List.cons_append] at e1 ⊢
      simp only [regProc, e1, e2, nodeProc, ht, objProc]
      rw [if_neg (by simp [rd])]
    · refine ⟨n0 + 3, fun k hk => ?_⟩
      obtain ⟨k, rfl⟩ : ∃ j, k = j + 3 := ⟨k - 3, by omega⟩
      obtain ⟨n', h1, rs', d', root', ks', g1, g2, g3, g4⟩ := h0 k (by omega)
      refine ⟨n', h1, rs', d', root', ks', g1, g2, g3, fun args m => ?_⟩
      rw [← g4]
      simp only [List.nil_append, List.cons_append, List.append_assoc]
      rw [proc_at h hs hall hmeta hz (by simp [namesO]) (k + 2) args m]
      simp only [nodeProc, ht, objProc]
      rw [if_neg (by simp [rd])]

private theorem follow {env : Env} (hp : ∀ a o, env.target a = some o → Ok o) {o : O} {ns : List Str} {o' : O}
    (hr : Reach env o ns o') (N : Nat) (rs : List (Str × Node)) (d : Str) (root : O) (ks : List Str)
    (h : Root rs d root) (hs : SR root ks o) (hne : d ++ rd (ks ++ ns) ≠ []) :
    ∃ n0, ∀ n, n0 ≤ n → ∀ args m, ∃ n', N ≤ n' ∧
      regProc env n rs (d ++ rd (ks ++ ns)) args m = nodeProc env n' (.obj o') [] args m := by
  obtain ⟨n0, h0⟩ := follow_x hp hr (xs := []) (by simp) (N + 1) rs d root ks h hs hne
  refine ⟨n0, fun n hn args m => ?_⟩
  obtain ⟨n', h1, rs', d', root', ks', g1, g2, g3, g4⟩ := h0 n hn
  obtain ⟨n', rfl⟩ : ∃ k, n' = k + 1 := ⟨n' - 1, by omega⟩
  refine ⟨n', by omega, ?_⟩
  have := proc_at (env := env) g1 g2 (ts := []) (by simp) (by simp [C33.Meta, rd, b]) g3 (by simp) n' args m
  have h4 := g4 args m
  simp only [List.append_nil] at h4
  rw [h4]
  simpa [rd] using this

private theorem lose {env : Env} (hp : ∀ a o, env.target a = some o → Ok o) {o : O} {ns : List Str}
    (hr : Lost env o ns) : ∀ (rs : List (Str × Node)) (d : Str) (root : O) (ks : List Str),
    Root rs d root → SR root ks o → (∀ n ∈ ns, Ident n) →
    (d ++ rd ks ≠ [] ∨ rs = regs [] root) →
    ∃ n0, ∀ n, n0 ≤ n → ∀ args m, regProc env n rs (d ++ rd (ks ++ ns)) args m = (.throw, m) := by
  have ending : ∀ (o : O) (t : Str) (ts : List Str), wrap o = false → (∀ tn u k a, o ≠ .enum tn u k a) →
      t ∉ namesO o → Ok o → (∀ n ∈ t :: ts, Ident n) →
      ∀ (rs : List (Str × Node)) (d : Str) (root : O) (ks : List Str),
      Root rs d root → SR root ks o → (d ++ rd ks ≠ [] ∨ rs = regs [] root) →
      ∃ n0, ∀ n, n0 ≤ n → ∀ args m, regProc env n rs (d ++ rd (ks ++ t :: ts)) args m = (.throw, m) := by
    intro o t ts hw hen hnm hok hid rs d root ks h hs hd
    refine ⟨4, fun n hn args m => ?_⟩
    obtain ⟨n, rfl⟩ : ∃ j, n = j + 4 := ⟨n - 4, by omega⟩
    by_cases hz : d ++ rd ks = []
    · rcases hd with hd | hd
      · exact absurd hz hd
      · simp only [List.append_eq_nil_iff] at hz
        obtain ⟨rfl, hz⟩ := hz
        have : ks = [] := by
          cases ks with
          | nil => rfl
          | cons k ks => simp [rd] at hz
        subst this
        cases hs
        subst hd
        simp only [List.nil_append, regProc, dispatch_none hok hw hid hnm]
    · rw [proc_at h hs (fun x hx => (hid x hx).nodot) (not_meta hid) hz (by intro t' ts' e; simp only [List.cons.injEq] at e; exact e.1 ▸ hnm) (n + 3) args m]
      have : nodeProc env (n + 3) (.obj o) (rd (t :: ts)) args m =
          regProc env (n + 1) (regs [] o) (rd (t :: ts)) args m := by
        cases o with
        | var k a => simp only [nodeProc, objProc]; rw [if_neg (by simp [rd])]
        | enum tn u k a => exact absurd rfl (hen tn u k a)
        | cls a ms => simp only [nodeProc, objProc]; rw [if_neg (by simp [rd])]
        | ptr a => simp [wrap] at hw
      rw [this]
      simp only [regProc, dispatch_none hok hw hid hnm]
  induction hr with
  | @cls a ms n ns hno =>
    intro rs d root ks h hs hi hd
    refine ending (.cls a ms) n ns rfl (by simp) ?_ (sr_ok hs h.ok).2 hi rs d root ks h hs hd
    intro hm
    obtain ⟨o, ho⟩ := names_has (show n ∈ names ms by simpa [namesO] using hm)
    exact hno o ho
  | @var k a n ns =>
    intro rs d root ks h hs hi hd
    exact ending (.var k a) n ns rfl (by simp) (by simp [namesO]) (sr_ok hs h.ok).2 hi rs d root ks h hs hd
  | @mem a ms n o ns hh _ ih =>
    intro rs d root ks h hs hi hd
    have := ih rs d root (ks ++ [n]) h (sr_snoc hs hh) (fun x hx => hi x (by simp [hx]))
      (.inl (by rw [rd_append]; simp [rd]))
    simpa using this
  | @deref a o ns ht hl ih =>
    intro rs d root ks h hs hi hd
    have hok := hp a o ht
    cases ns with
    | nil =>
      exfalso
      have : ∀ {o : O} {l : List Str}, Lost env o l → l ≠ [] := by
        intro o l h1
        induction h1 with
        | deref _ _ ih => exact ih
        | _ => simp
      exact this hl rfl
    | cons n ns =>
      obtain ⟨n0, h0⟩ := ih (regs [] o) [] o [] (root_self hok) .here hi (.inr rfl)
      refine ⟨n0 + 3, fun k hk args m => ?_⟩
      obtain ⟨k, rfl⟩ : ∃ j, k = j + 3 := ⟨k - 3, by omega⟩
      have h1 := h0 k (by omega) args m
      simp only [List.nil_append] at h1
      by_cases hz : d ++ rd ks = []
      · simp only [List.append_eq_nil_iff] at hz
        obtain ⟨rfl, hz⟩ := hz
        have : ks = [] := by
          cases ks with
          | nil => rfl
          | cons k ks => simp [rd] at hz
        subst this
        cases hs
        obtain ⟨i, e1, e2⟩ := dispatch_ptr h (fun x hx => (hi x hx).nodot) (not_meta hi)
        simp only [List.nil_append] at e1 ⊢
        simp only [regProc, e1, e2, nodeProc, ht, objProc]
        rw [if_neg (by simp [rd])]
        exact h1
      · rw [proc_at h hs (fun x hx => (hi x hx).nodot) (not_meta hi) hz (by simp [namesO]) (k + 2) args m]
        simp only [nodeProc, ht, objProc]
        rw [if_neg (by simp [rd])]
        exact h1

/-! ### C88 -/

theorem C88.cast_of_inRange {u : Under} {v : Int} (hv : InRange u v) : cast u v = v := by
  obtain ⟨w, sg⟩ := u
  cases w <;> cases sg <;> simp [EnumKeys.cast, InRange, Width.modulus] at * <;> omega

/-- A repository: objects registered under identifiers, no two the same; names of members as in `Ok`. -/
structure C88.Repo (env : Env) (objs : List (Str × O)) : Prop where
  nodup : (objs.map (·.1)).Nodup
  ident : ∀ e ∈ objs, Ident e.1
  ok : ∀ e ∈ objs, Ok e.2
  targets : ∀ a o, env.target a = some o → Ok o

theorem C88.repo_root {env : Env} {objs : List (Str × O)} (h : Repo env objs) {d : Str} {o : O}
    (hm : (d, o) ∈ objs) : Root (objs.flatMap fun e => regs e.1 e.2) d o := by
  refine ⟨?_, h.ok _ hm, (h.ident _ hm).noat⟩
  obtain ⟨l, r, rfl⟩ := List.append_of_mem hm
  refine ⟨l.flatMap fun e => regs e.1 e.2, r.flatMap fun e => regs e.1 e.2, by simp, ?_⟩
  intro e he
  have : ∃ x, (x ∈ l ∨ x ∈ r) ∧ e ∈ regs x.1 x.2 := by
    rcases he with he | he
    · obtain ⟨x, h1, h2⟩ := List.mem_flatMap.1 he; exact ⟨x, .inl h1, h2⟩
    · obtain ⟨x, h1, h2⟩ := List.mem_flatMap.1 he; exact ⟨x, .inr h1, h2⟩
  obtain ⟨x, hx, hex⟩ := this
  have hxm : x ∈ l ++ (d, o) :: r := by
    rcases hx with hx | hx <;> simp [hx]
  have hxd : x.1 ≠ d := by
    have hn := h.nodup
    simp only [List.map_append, List.map_cons, List.nodup_append, List.nodup_cons] at hn
    rcases hx with hx | hx
    · exact hn.2.2 _ (List.mem_map.2 ⟨x, hx, rfl⟩) _ (by simp)
    · intro e; exact hn.2.1.1 (e ▸ List.mem_map.2 ⟨x, hx, rfl⟩)
  rcases regs_names x.2 x.1 e (h.ok _ hxm) hex with ⟨ks, o', h1, h2⟩ | h2
  · right
    intro ns rest hns hr heq
    rw [h2, List.append_assoc] at heq
    exact hxd (dot_split (h.ident _ hxm).nodot (h.ident _ hm).nodot (append_head (rd_head ks) hr) (rd_head ns) heq).1
  · exact .inl h2

theorem C88.arrive {env : Env} {objs : List (Str × O)} (h : Repo env objs) {d : Str} {o o' : O} {ns : List Str}
    (hm : (d, o) ∈ objs) (hr : Reach env o ns o') (N : Nat) : ∃ n0, ∀ n, n0 ≤ n → ∀ args m, ∃ n', N ≤ n' ∧
      query env n objs (d ++ rd ns) args m = nodeProc env n' (.obj o') [] args m := by
  have := follow h.targets hr N _ d o [] (repo_root h hm) .here (by
    intro e
    exact (h.ident _ hm).ne (List.append_eq_nil_iff.1 e).1)
  simpa [query] using this

/-- A path to a simple variable, and no argument: the variable is returned, and nothing changed. -/
theorem C88_get_partial {env : Env} {objs : List (Str × O)} (h : Repo env objs) {d : Str} {o : O} {ns : List Str}
    (hm : (d, o) ∈ objs) {k : VK} {a : Nat} (hr : Reach env o ns (.var k a)) :
    ∃ n0, ∀ n, n0 ≤ n → ∀ m, query env n objs (d ++ rd ns) .null m = (.ref (.var k a), m) := by
  obtain ⟨n0, h0⟩ := arrive h hm hr 2
  refine ⟨n0, fun n hn m => ?_⟩
  obtain ⟨n', h1, h2⟩ := h0 n hn .null m
  obtain ⟨n', rfl⟩ : ∃ j, n' = j + 2 := ⟨n' - 2, by omega⟩
  rw [h2]
  simp [nodeProc, objProc]

/-- A JSON value that is of the type of a variable: the value it stands for. -/
inductive C88.Fits : VK → J → VV → Prop
  | int {u i} : InRange u i → InRange int64 i → C88.Fits (.int u) (.int i) (.int i)
  | bool {x} : C88.Fits .bool (.bool x) (.bool x)
  | real {r} : C88.Fits .real (.real r) (.real r)
  | str {s} : C88.Fits .str (.str s) (.str s)

/-- A path to a simple variable, and an argument of its type (or a list beginning with one): the variable, and
nothing else, has the value of the argument, and is returned. -/
theorem C88_set_partial {env : Env} {objs : List (Str × O)} (h : Repo env objs) {d : Str} {o : O} {ns : List Str}
    (hm : (d, o) ∈ objs) {k : VK} {a : Nat} (hr : Reach env o ns (.var k a)) {j : J} {v : VV} (hf : Fits k j v)
    (l : List J) :
    ∃ n0, ∀ n, n0 ≤ n → ∀ m, ∃ m', m' a = v ∧ (∀ x, x ≠ a → m' x = m x) ∧
      query env n objs (d ++ rd ns) j m = (.ref (.var k a), m') ∧
      query env n objs (d ++ rd ns) (.arr (j :: l)) m = (.ref (.var k a), m') := by
  obtain ⟨n0, h0⟩ := arrive h hm hr 3
  refine ⟨n0, fun n hn m => ⟨m.put a v, by simp [Mem.put], fun x hx => by simp [Mem.put, hx], ?_, ?_⟩⟩
  · obtain ⟨n', h1, h2⟩ := h0 n hn j m
    obtain ⟨n', rfl⟩ : ∃ j, n' = j + 3 := ⟨n' - 3, by omega⟩
    rw [h2]
    cases hf with
    | int hi h64 => simp [nodeProc, objProc, convO, convVar, after', cast_of_inRange, hi, h64]
    | bool => simp [nodeProc, objProc, convO, convVar, after']
    | real => simp [nodeProc, objProc, convO, convVar, after']
    | str => simp [nodeProc, objProc, convO, convVar, after']
  · obtain ⟨n', h1, h2⟩ := h0 n hn (.arr (j :: l)) m
    obtain ⟨n', rfl⟩ : ∃ j, n' = j + 3 := ⟨n' - 3, by omega⟩
    rw [h2]
    cases hf with
    | int hi h64 => simp [nodeProc, objProc, convO, convVar, after', cast_of_inRange, hi, h64]
    | bool => simp [nodeProc, objProc, convO, convVar, after']
    | real => simp [nodeProc, objProc, convO, convVar, after']
    | str => simp [nodeProc, objProc, convO, convVar, after']

/-- A path to an enumeration: without an argument its label is returned; with a label of it, it and nothing
else gets the value of that label, which is returned if no other enumerator has the same value. -/
theorem C88_enum_partial {env : Env} {objs : List (Str × O)} (h : Repo env objs) {d : Str} {o : O} {ns : List Str}
    (hm : (d, o) ∈ objs) {tn : Str} {u : Under} {k : Keys} {a : Nat} (hr : Reach env o ns (.enum tn u k a)) :
    ∃ n0, ∀ n, n0 ≤ n → ∀ m,
      (∀ i, m a = .int i → query env n objs (d ++ rd ns) .null m = (.text (nameOf k i), m)) ∧
      ∀ s i, mfind strLt s k.s2v = some i → ∃ m', m' a = .int (cast u i) ∧ (∀ x, x ≠ a → m' x = m x) ∧
        query env n objs (d ++ rd ns) (.str s) m = (.text (nameOf k (cast u i)), m') := by
  obtain ⟨n0, h0⟩ := arrive h hm hr 1
  refine ⟨n0, fun n hn m => ⟨fun i hi => ?_, fun s i hs => ⟨m.put a (.int (cast u i)), by simp [Mem.put],
    fun x hx => by simp [Mem.put, hx], ?_⟩⟩⟩
  · obtain ⟨n', h1, h2⟩ := h0 n hn .null m
    obtain ⟨n', rfl⟩ : ∃ j, n' = j + 1 := ⟨n' - 1, by omega⟩
    rw [h2]
    simp [nodeProc, enumProc, hi, b]
  · obtain ⟨n', h1, h2⟩ := h0 n hn (.str s) m
    obtain ⟨n', rfl⟩ : ∃ j, n' = j + 1 := ⟨n' - 1, by omega⟩
    rw [h2]
    simp [nodeProc, enumProc, b, ofName, hs, Mem.put]

/-- A path with a name that a class does not have, or that goes on after a simple variable: an exception, and
nothing changed, whatever the argument. -/
theorem C88_missing_partial {env : Env} {objs : List (Str × O)} (h : Repo env objs) {d : Str} {o : O} {ns : List Str}
    (hm : (d, o) ∈ objs) (hl : Lost env o ns) (hi : ∀ n ∈ ns, Ident n) :
    ∃ n0, ∀ n, n0 ≤ n → ∀ args m, query env n objs (d ++ rd ns) args m = (.throw, m) := by
  have := lose h.targets hl _ d o [] (repo_root h hm) .here hi (.inl (by
    intro e
    exact (h.ident _ hm).ne (List.append_eq_nil_iff.1 e).1))
  simpa [query] using this

/-! Where it fails. -/

/-- An integer out of the range of the variable is not refused: another value is stored, without an
exception. -/
theorem C88_fails_range (env : Env) (u : Under) (a : Nat) (i : Int) (hi : ¬ InRange u i) (n : Nat) (m : Mem) :
    ∃ i' m', i' ≠ i ∧ m' a = .int i' ∧
      nodeProc env (n + 3) (.obj (.var (.int u) a)) [] (.int i) m = (.ref (.var (.int u) a), m') := by
  refine ⟨cast u (cast int64 i), m.put a (.int (cast u (cast int64 i))), ?_, by simp [Mem.put],
    by simp [nodeProc, objProc, convO, convVar, after']⟩
  intro h
  apply hi
  have : ∀ v, InRange u (cast u v) := by
    intro v
    obtain ⟨w, sg⟩ := u
    cases w <;> cases sg <;> simp [EnumKeys.cast, InRange, Width.modulus] <;> omega
  rw [← h]; exact this _

/-- A number given to a string variable is not refused: the string becomes the character with that code. -/
theorem C88_fails_string (env : Env) (a : Nat) (i : Int) (hi : 0 ≤ i ∧ i < 256) (n : Nat) (m : Mem) :
    nodeProc env (n + 3) (.obj (.var .str a)) [] (.int i) m =
      (.ref (.var .str a), m.put a (.str [UInt8.ofNat i.toNat])) := by
  have h1 : cast int64 i = i := cast_of_inRange (by simp [InRange, int64, Width.modulus]; omega)
  have h2 : i % 256 = i := by omega
  simp [nodeProc, objProc, convO, convVar, after', charOf, h1, h2]

/-- A label that an enumeration does not have is not refused: it gets the value 0. -/
theorem C88_fails_label (env : Env) (tn : Str) (u : Under) (k : Keys) (a : Nat) (s : Str) (hs : hasName k s = false)
    (n : Nat) (m : Mem) : ∃ m', m' a = .int 0 ∧
      nodeProc env (n + 1) (.obj (.enum tn u k a)) [] (.str s) m = (.text (nameOf k 0), m') := by
  have h0 : cast u 0 = 0 := by
    obtain ⟨w, sg⟩ := u
    cases w <;> cases sg <;> rfl
  have h1 : ofName u k s = 0 := by
    simp only [hasName, Option.isSome_eq_false_iff, Option.isNone_iff_eq_none] at hs
    simp [ofName, hs, h0]
  exact ⟨m.put a (.int 0), by simp [Mem.put], by simp [nodeProc, enumProc, b, h1, Mem.put]⟩

/-- An enumeration given a number, a truth value or an object: nothing is done, and no exception thrown. -/
theorem C88_fails_enum_number (env : Env) (tn : Str) (u : Under) (k : Keys) (a : Nat) (i : Int) (m : Mem)
    (hi : m a = .int i) (n : Nat) (j : J) (hj : (∃ x, j = .int x) ∨ (∃ x, j = .real x) ∨ (∃ x, j = .bool x) ∨
      ∃ x, j = .obj x) :
    nodeProc env (n + 1) (.obj (.enum tn u k a)) [] j m = (.text (nameOf k i), m) := by
  rcases hj with ⟨x, rfl⟩ | ⟨x, rfl⟩ | ⟨x, rfl⟩ | ⟨x, rfl⟩ <;> simp [nodeProc, enumProc, b, hi]

/-- A path that goes on after an enumeration is taken for the enumeration: a value meant for something that
does not exist is assigned to it. -/
theorem C88_fails_below_enum {env : Env} {objs : List (Str × O)} (h : Repo env objs) {d : Str} {tn : Str} {u : Under}
    {k : Keys} {a : Nat} (hm : (d, .enum tn u k a) ∈ objs) {ns : List Str} (hi : ∀ n ∈ ns, Ident n) (s : Str) (i : Int)
    (hs : mfind strLt s k.s2v = some i) :
    ∀ n m, query env (n + 2) objs (d ++ rd ns) (.str s) m =
      (.text (nameOf k (cast u i)), m.put a (.int (cast u i))) := by
  intro n m
  have := proc_at (env := env) (repo_root h hm) SR.here (fun x hx => (hi x hx).nodot) (not_meta hi)
    (by intro e; exact (h.ident _ hm).ne (List.append_eq_nil_iff.1 e).1) (by simp [namesO]) (n + 1) (.str s) m
  simp only [List.nil_append] at this
  rw [query, this]
  have h1 : rd ns ≠ b "@type" ∧ rd ns ≠ b "@signature" := by
    constructor <;>
    · intro e
      rcases rd_head ns with h1 | h1 <;> rw [e] at h1
      · cases h1
      · exact absurd h1 (by decide)
  simp [nodeProc, enumProc, h1, ofName, hs, Mem.put]

/-- Whatever is asked of, or assigned through, a null pointer: nothing happens, and no exception is thrown. -/
theorem C88_fails_null {env : Env} {objs : List (Str × O)} (h : Repo env objs) {d : Str} {a : Nat}
    (hm : (d, .ptr a) ∈ objs) (hn : env.target a = none) {ns : List Str} (hi : ∀ n ∈ ns, Ident n) :
    ∀ n args m, query env (n + 2) objs (d ++ rd ns) args m = (.void, m) := by
  intro n args m
  have := proc_at (env := env) (repo_root h hm) SR.here (fun x hx => (hi x hx).nodot) (not_meta hi)
    (by intro e; exact (h.ident _ hm).ne (List.append_eq_nil_iff.1 e).1) (by simp [namesO]) (n + 1) args m
  simp only [List.nil_append] at this
  rw [query, this]
  simp [nodeProc, hn]

private def exEnv : Env where
  lib := ⟨.lib, 0, fun i => i.toNat, id, id⟩
  trunc := fun _ r => if r < 100 then some r else none
  target := fun a => if a = 9 then some (.cls 20 (.mem (b "z") (.var .str 21) .nil)) else none
  assign := fun _ _ m => (.ok, m)

private def exKeys : Keys := table [(b "red", 0), (b "green", 1)]

/-- A class with a base, a member of a class, a pointer and an enumeration. -/
private def exObj : O :=
  .cls 1 (.base (.cls 1 (.mem (b "id") (.var (.int int32) 2) .nil))
    (.mem (b "p") (.cls 3 (.mem (b "x") (.var .real 4) (.mem (b "y") (.var .real 5) .nil)))
    (.mem (b "q") (.ptr 9) (.mem (b "c") (.enum (b "Colour") int32 exKeys 7) .nil))))

/-- A member of a derived class that has the name of one of its base: the one of the base is read and changed
under that name, if they are simple variables. -/
theorem C88_fails_hidden (env : Env) (m : Mem) (a a' : Nat) (j : J) (hj : ∃ i, j = .int i ∧ InRange int32 i)
    (haa : a ≠ a') : ∃ m', m' a' = m a' ∧
      query env 6 [(b "o", .cls 0 (.base (.cls 1 (.mem (b "x") (.var (.int int32) a) .nil))
        (.mem (b "x") (.var (.int int32) a') .nil)))] (b "o.x") j m = (.ref (.var (.int int32) a), m') := by
  obtain ⟨i, rfl, _⟩ := hj
  refine ⟨m.put a (.int (cast int32 (cast int64 i))), by simp [Mem.put, Ne.symm haa], ?_⟩
  have h1 : process (regOf ([(b "o", O.cls 0 (.base (.cls 1 (.mem (b "x") (.var (.int int32) a) .nil))
        (.mem (b "x") (.var (.int int32) a') .nil)))].flatMap fun e => regs e.1 e.2)) (b "o.x") =
      .process (.obj 0 false) [] := by
    simp only [List.flatMap_cons, List.flatMap_nil, regs, regsM, regOf, List.append_nil, List.nil_append,
      List.cons_append, opsFrom, opOf]
    decide
  simp only [query, regProc, h1]
  simp [regs, regsM, nodeProc, objProc, convO, convVar, after']

private theorem exRepo : Repo exEnv [(b "o", exObj), (b "n", .ptr 8)] := by
  have idb : ∀ s, s ∈ [b "o", b "n", b "id", b "p", b "q", b "c", b "x", b "y", b "z"] → Ident s := by
    intro s hs
    simp only [List.mem_cons, List.not_mem_nil, or_false] at hs
    rcases hs with rfl | rfl | rfl | rfl | rfl | rfl | rfl | rfl | rfl <;> exact ⟨by decide, by decide, by decide⟩
  refine ⟨by decide, ?_, ?_, ?_⟩
  · intro e he
    simp only [List.mem_cons, List.not_mem_nil, or_false] at he
    rcases he with rfl | rfl
    · exact idb _ (by decide)
    · exact idb _ (by decide)
  · intro e he
    simp only [List.mem_cons, List.not_mem_nil, or_false] at he
    rcases he with rfl | rfl
    · simp only [exObj, Ok, OkM, names, namesO]
      refine ⟨by decide, ⟨_, _, rfl⟩, ⟨by decide, idb _ (by decide), trivial, trivial⟩, idb _ (by decide),
        ⟨by decide, idb _ (by decide), trivial, idb _ (by decide), trivial, trivial⟩, idb _ (by decide), trivial,
        idb _ (by decide), trivial, trivial⟩
    · trivial
  · intro a o h
    simp only [exEnv] at h
    split at h
    · cases h
      simp only [Ok, OkM, names]
      exact ⟨by decide, idb _ (by decide), trivial, trivial⟩
    · cases h

private theorem reachZ : Reach exEnv exObj [b "q", b "z"] (.var .str 21) :=
  .mem (.afterBase (.later .here)) (.deref rfl (.mem .here .here))
private theorem reachId : Reach exEnv exObj [b "id"] (.var (.int int32) 2) := .mem (.inBase .here) .here

example : ∃ n0, ∀ n, n0 ≤ n → ∀ m, query exEnv n [(b "o", exObj), (b "n", .ptr 8)] (b "o.q.z") .null m =
    (.ref (.var .str 21), m) := C88_get_partial exRepo (d := b "o") (by simp) reachZ
example : ∃ n0, ∀ n, n0 ≤ n → ∀ m, ∃ m', m' 2 = .int 77 ∧ (∀ x, x ≠ 2 → m' x = m x) ∧
      query exEnv n [(b "o", exObj), (b "n", .ptr 8)] (b "o.id") (.int 77) m = (.ref (.var (.int int32) 2), m') ∧
      query exEnv n [(b "o", exObj), (b "n", .ptr 8)] (b "o.id") (.arr [.int 77]) m =
        (.ref (.var (.int int32) 2), m') :=
  C88_set_partial exRepo (d := b "o") (by simp) reachId
    (.int (i := 77) (by simp [InRange, int32, Width.modulus]) (by simp [InRange, int64, Width.modulus])) []
example := C88_enum_partial exRepo (d := b "o") (o := exObj) (by simp) (tn := b "Colour")
  (.mem (.afterBase (.later (.later .here))) .here)
example : mfind strLt (b "green") exKeys.s2v = some 1 ∧ nameOf exKeys (cast int32 1) = b "green" := by
  constructor <;> decide
example : Lost exEnv exObj [b "q", b "zz"] :=
  .mem (.afterBase (.later .here)) (.deref rfl (.cls (by
    intro o h
    have := has_names h
    revert this; simp only [names]; decide)))
example : ∀ n m, query exEnv (n + 2) [(b "o", exObj), (b "n", .ptr 8)] (b "n.any.thing") (.int 3) m = (.void, m) :=
  fun n => C88_fails_null exRepo (d := b "n") (a := 8) (by simp) rfl (ns := [b "any", b "thing"])
    (by intro s hs; simp only [List.mem_cons, List.not_mem_nil, or_false] at hs
        rcases hs with rfl | rfl <;> exact ⟨by decide, by decide, by decide⟩) n (.int 3)
example : ¬ InRange ⟨.w8, true⟩ 300 ∧ hasName exKeys (b "blue") = false := by
  constructor
  · simp [InRange, Width.modulus]
  · decide

/-! ### C89 Factories -/

/-- With a callback, and the name not that of the factory: the call returns, and the object is registered under
its name and everything else as before. -/
theorem C89_created_partial (r : Reg) (hs : Sorted strLt r) (f name : Str) (id : Nat) (h : name ≠ f) :
    (factory r f name true id).1 = .done ∧
    mfind strLt name (factory r f name true id).2 = some (.obj id true) ∧
    ∀ x, x ≠ name → mfind strLt x (factory r f name true id).2 = mfind strLt x r := by
  refine ⟨by simp [factory, h], ?_, ?_⟩
  · simp [factory, addObj, mfind_minsert strOrd, mfind_merase strOrd _ _ hs]
  · intro x hx
    simp [factory, addObj, mfind_minsert strOrd, mfind_merase strOrd _ _ hs, hx]

/-- Without the optional callback, each call throws, though the object has been created and registered. -/
theorem C89_fails_callback (r : Reg) (hs : Sorted strLt r) (f name : Str) (id : Nat) (h : name ≠ f) :
    (factory r f name false id).1 = .throw ∧
    mfind strLt name (factory r f name false id).2 = some (.obj id true) := by
  refine ⟨by simp [factory, h], ?_⟩
  simp [factory, addObj, mfind_minsert strOrd, mfind_merase strOrd _ _ hs]

/-- An object created under the name of the factory destroys the function being executed: undefined. -/
theorem C89_fails_name (r : Reg) (f : Str) (c : Bool) (id : Nat) : (factory r f f c id).1 = .ub := by
  simp [factory]

example : Sorted strLt (build [.fn (b "Foo") ⟨b "void", [b "string"], 1⟩]) ∧ b "foo1" ≠ b "Foo" := by
  constructor
  · simp [build, apply, addFn, mfind, minsert, Sorted]
  · decide

end Verif.Rest
