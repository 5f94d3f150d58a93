import Verif.Props.RestObj
/-
C96: what the REST service lists for an object.
-/
namespace Verif.Rest
open OMap EnumKeys
open Verif.Json (J R Lib Oc dot)
open C88

/-! ### What is meant -/

/-- Names that lead to a member of an object, or a member of a member; no pointer is passed. -/
inductive C96.Inside : O → List Str → O → Prop
  | mem {a ms n o} : Has ms n o → C96.Inside (.cls a ms) [n] o
  | more {a ms n o ns o'} : Has ms n o → C96.Inside o ns o' → C96.Inside (.cls a ms) (n :: ns) o'

/-- The list of an object has the names of what is inside, each with a dot in front, and for each type of enumeration
found inside `@enum.` and its name; nothing else, and nothing twice. -/
structure C96.Lists (o : O) (l : List Str) : Prop where
  nodup : l.Nodup
  mem : ∀ p, p ∈ l ↔ (∃ ns o', C96.Inside o ns o' ∧ p = rd ns) ∨
    ∃ ns tn u k a, C96.Inside o ns (.enum tn u k a) ∧ p = b "@enum." ++ tn

open C96

/-! ### What is registered -/

mutual
private theorem regs_in : ∀ (o : O) (d : Str) (e : Str × Node), Ok o → e ∈ regs d o →
      (∃ ks o', SR o ks o' ∧ e.1 = d ++ rd ks) ∨ ∃ ks tn u k a, SR o ks (.enum tn u k a) ∧ e.1 = b "@enum." ++ tn
  | .var k a, d, e, _, h => by
    simp only [regs, List.mem_singleton] at h
    exact .inl ⟨[], _, .here, by simp [h, rd]⟩
  | .enum tn u k a, d, e, _, h => by
    simp only [regs, List.mem_cons, List.not_mem_nil, or_false] at h
    rcases h with h | h
    · exact .inl ⟨[], _, .here, by simp [h, rd]⟩
    · exact .inr ⟨[], tn, u, k, a, .here, by simp [h]⟩
  | .cls a ms, d, e, hk, h => by
    simp only [regs, List.mem_append, List.mem_singleton] at h
    simp only [Ok] at hk
    rcases h with h | h
    · rcases regsM_in ms d e hk.2 h with ⟨n, oc, ks, o', h1, h2, h3⟩ | h | ⟨n, oc, ks, tn, u, k, a', h1, h2, h3⟩
      · exact .inl ⟨n :: ks, o', .mem h1 h2, h3⟩
      · exact .inl ⟨[], _, .here, by simp [h, rd]⟩
      · exact .inr ⟨n :: ks, tn, u, k, a', .mem h1 h2, h3⟩
    · exact .inl ⟨[], _, .here, by simp [h, rd]⟩
  | .ptr a, d, e, _, h => by
    simp only [regs, List.mem_singleton] at h
    exact .inl ⟨[], _, .here, by simp [h, rd]⟩
private theorem regsM_in : ∀ (ms : Ms) (d : Str) (e : Str × Node), OkM ms → e ∈ regsM d ms →
      (∃ n oc ks o', Has ms n oc ∧ SR oc ks o' ∧ e.1 = d ++ rd (n :: ks)) ∨ e.1 = d ∨
        ∃ n oc ks tn u k a, Has ms n oc ∧ SR oc ks (.enum tn u k a) ∧ e.1 = b "@enum." ++ tn
  | .nil, d, e, _, h => by
    simp [regsM] at h
  | .base o r, d, e, hk, h => by
    simp only [regsM, List.mem_append] at h
    simp only [OkM] at hk
    rcases h with h | h
    · rcases regs_in o d e hk.2.1 h with ⟨ks, o', h1, h2⟩ | ⟨ks, tn, u, k, a, h1, h2⟩
      · cases h1 with
        | here => exact .inr (.inl (by simpa [rd] using h2))
        | mem hh h1 => exact .inl ⟨_, _, _, _, .inBase hh, h1, h2⟩
      · obtain ⟨a', ms', rfl⟩ := hk.1
        cases h1 with
        | mem hh h1 => exact .inr (.inr ⟨_, _, _, tn, u, k, a, .inBase hh, h1, h2⟩)
    · rcases regsM_in r d e hk.2.2 h with ⟨n, oc, ks, o', h1, h2, h3⟩ | h | ⟨n, oc, ks, tn, u, k, a, h1, h2, h3⟩
      · exact .inl ⟨n, oc, ks, o', .afterBase h1, h2, h3⟩
      · exact .inr (.inl h)
      · exact .inr (.inr ⟨n, oc, ks, tn, u, k, a, .afterBase h1, h2, h3⟩)
  | .mem n o r, d, e, hk, h => by
    simp only [regsM, List.mem_append] at h
    simp only [OkM] at hk
    rcases h with h | h
    · rcases regs_in o _ e hk.2.1 h with ⟨ks, o', h1, h2⟩ | ⟨ks, tn, u, k, a, h1, h2⟩
      · exact .inl ⟨n, o, ks, o', .here, h1, by simp [h2, rd]⟩
      · exact .inr (.inr ⟨n, o, ks, tn, u, k, a, .here, h1, h2⟩)
    · rcases regsM_in r d e hk.2.2 h with ⟨n, oc, ks, o', h1, h2, h3⟩ | h | ⟨n, oc, ks, tn, u, k, a, h1, h2, h3⟩
      · exact .inl ⟨n, oc, ks, o', .later h1, h2, h3⟩
      · exact .inr (.inl h)
      · exact .inr (.inr ⟨n, oc, ks, tn, u, k, a, .later h1, h2, h3⟩)
end

private theorem has_regs {ms : Ms} {n : Str} {o : O} (h : Has ms n o) (d : Str) (e : Str × Node)
    (he : e ∈ regs (d ++ dot :: n) o) : e ∈ regsM d ms := by
  induction h with
  | here => simp [regsM, he]
  | later _ ih => simp [regsM, ih he]
  | inBase _ ih => simp [regsM, regs, ih he]
  | afterBase _ ih => simp [regsM, ih he]

private theorem sr_regs {o : O} {ks : List Str} {o' : O} (h : SR o ks o') :
    ∀ (d : Str) (e : Str × Node), e ∈ regs (d ++ rd ks) o' → e ∈ regs d o := by
  induction h with
  | here => intro d e he; simpa [rd] using he
  | mem hh _ ih =>
    intro d e he
    simp only [regs, List.mem_append]
    refine .inl (has_regs hh d e (ih _ e ?_))
    simpa [rd] using he

private theorem self_regs (o : O) (d : Str) : ∃ x, (d, x) ∈ regs d o := by
  cases o with
  | var k a => exact ⟨.obj (.var k a), by simp [regs]⟩
  | enum tn u k a => exact ⟨.obj (.enum tn u k a), by simp [regs]⟩
  | cls a ms => exact ⟨.obj (.cls a ms), by simp [regs]⟩
  | ptr a => exact ⟨.obj (.ptr a), by simp [regs]⟩

private theorem inside_sr {o : O} {ns : List Str} {o' : O} (h : Inside o ns o') : SR o ns o' ∧ ns ≠ [] := by
  induction h with
  | mem hh => exact ⟨.mem hh .here, by simp⟩
  | more hh _ ih => exact ⟨.mem hh ih.1, by simp⟩

private theorem sr_inside {o : O} {ns : List Str} {o' : O} (h : SR o ns o') (hn : ns ≠ []) : Inside o ns o' := by
  induction h with
  | here => exact absurd rfl hn
  | @mem a ms n o ns o' hh hs ih =>
    cases ns with
    | nil => cases hs; exact .mem hh
    | cons k ks => exact .more hh (ih (by simp))

private theorem mem_listed (rs : List (Str × Node)) (p : Str) : p ∈ listed rs ↔ p ≠ [] ∧ ∃ e ∈ rs, e.1 = p := by
  have hs : Sorted strLt (regOf rs) := C35.build_sorted _
  have h1 : p ∈ (regOf rs).map (·.1) ↔ ∃ e ∈ rs, e.1 = p := by
    have h2 : p ∈ (regOf rs).map (·.1) ↔ (mfind strLt p (regOf rs)).isSome = true := by
      cases hf : mfind strLt p (regOf rs) with
      | none => have := (mfind_none_iff strOrd hs p).1 hf; simp [this]
      | some v =>
        have := (mfind_iff_mem strOrd hs p v).1 hf
        simp only [Option.isSome_some, iff_true]
        exact List.mem_map.2 ⟨_, this, rfl⟩
    rw [h2]
    constructor
    · intro h
      cases hc : mfind strLt p (regOf rs) with
      | none => rw [hc] at h; cases h
      | some x =>
        apply Classical.byContradiction
        intro hne
        have := find_none (rs := rs) (p := p) (fun e he hq => hne ⟨e, he, hq⟩)
        rw [this] at hc; cases hc
    · rintro ⟨e, he, rfl⟩
      obtain ⟨pre, post, rfl⟩ := List.append_of_mem he
      refine (C35_registered _ _).2 ?_
      have : ∀ (i : Nat) (l : List (Str × Node)), e ∈ l → ∃ op ∈ opsFrom i l, op.name = e.1 := by
        intro i l
        induction l generalizing i with
        | nil => simp
        | cons x l ih =>
          intro hx
          rcases List.mem_cons.1 hx with rfl | hx
          · refine ⟨opOf i e, by simp [opsFrom], ?_⟩
            obtain ⟨d, nd⟩ := e
            match nd with
            | .enums k => rfl
            | .obj (.var k a) => rfl
            | .obj (.enum _ _ _ _) => rfl
            | .obj (.cls _ _) => rfl
            | .obj (.ptr _) => rfl
          · obtain ⟨op, h1, h2⟩ := ih (i + 1) hx
            exact ⟨op, by simp [opsFrom, h1], h2⟩
      exact this 0 _ (by simp)
  simp only [listed, List.mem_filter, h1, decide_eq_true_eq, ne_eq, and_comm]

private theorem listed_nodup (rs : List (Str × Node)) : (listed rs).Nodup :=
  ((C35.build_sorted _).nodup strOrd).filter _

private theorem lists_cls {a : Nat} {ms : Ms} (hk : Ok (.cls a ms)) : Lists (.cls a ms) (listed (regs [] (.cls a ms))) := by
  refine ⟨listed_nodup _, fun p => ?_⟩
  rw [mem_listed]
  constructor
  · rintro ⟨hp, e, he, rfl⟩
    rcases regs_in _ [] e hk he with ⟨ks, o', h1, h2⟩ | ⟨ks, tn, u, k, a', h1, h2⟩
    · refine .inl ⟨ks, o', sr_inside h1 ?_, by simpa using h2⟩
      rintro rfl
      exact hp (by simpa [rd] using h2)
    · refine .inr ⟨ks, tn, u, k, a', sr_inside h1 ?_, h2⟩
      rintro rfl
      cases h1
  · rintro (⟨ks, o', h1, rfl⟩ | ⟨ks, tn, u, k, a', h1, rfl⟩)
    · obtain ⟨h2, h3⟩ := inside_sr h1
      refine ⟨?_, ?_⟩
      · cases ks with
        | nil => exact absurd rfl h3
        | cons k ks => simp [rd]
      · obtain ⟨x, hx⟩ := self_regs o' (rd ks)
        exact ⟨_, sr_regs h2 [] _ (by simpa using hx), rfl⟩
    · obtain ⟨h2, h3⟩ := inside_sr h1
      exact ⟨by simp [b], _, sr_regs h2 [] (b "@enum." ++ tn, .enums k) (by simp [regs]), rfl⟩

/-! ### The request -/

private theorem list_at {env : Env} {objs : List (Str × O)} (h : Repo env objs) {d : Str} {o o' : O} {ns : List Str}
    (hm : (d, o) ∈ objs) (hr : Reach env o ns o') : ∃ n0, ∀ n, n0 ≤ n → ∀ args m,
      query env n objs (d ++ rd ns ++ b ".@list") args m = (.listing (nodeList env (.obj o')), m) := by
  have hx : ∀ n ∈ [b "@list"], dot ∉ n := by
    intro n hn; rw [List.mem_singleton.1 hn]; decide
  obtain ⟨n0, h0⟩ := follow_x h.targets hr hx 1 _ d o [] (repo_root h hm) .here (by
    intro e
    exact (h.ident _ hm).ne (List.append_eq_nil_iff.1 e).1)
  refine ⟨n0, fun n hn args m => ?_⟩
  obtain ⟨n', h1, rs', d', root', ks', g1, g2, g3, g4⟩ := h0 n hn
  obtain ⟨n', rfl⟩ : ∃ k, n' = k + 1 := ⟨n' - 1, by omega⟩
  have hq : d ++ rd ns ++ b ".@list" = d ++ rd ([] ++ ns ++ [b "@list"]) := by
    rw [rd_append]; simp; rfl
  rw [query, hq, g4]
  obtain ⟨i, e1, e2⟩ := dispatch_any g1 g2 (ts := [b "@list"]) hx g3 (by
    intro t ts' ht
    cases ht
    intro hc
    have hok := (sr_ok g2 g1.ok).2
    cases o' with
    | cls a ms =>
      simp only [namesO] at hc
      simp only [Ok] at hok
      obtain ⟨x, hx⟩ := names_has hc
      exact (has_ok hx hok.2).1.noat (by decide)
    | _ => simp [namesO] at hc)
  have hl : C33.answer (.obj i (wrap o')) (rd [b "@list"]) = .list (.obj i (wrap o')) := by
    rfl
  rw [hl] at e1
  simp only [regProc, e1, e2]

private theorem reach_snoc {env : Env} {o : O} {ns : List Str} {o' : O} (h : Reach env o ns o') {ks : List Str} {o'' : O}
    (hs : Inside o' ks o'') : Reach env o (ns ++ ks) o'' := by
  have sr_reach : ∀ {o : O} {ks : List Str} {o' : O}, SR o ks o' → Reach env o ks o' := by
    intro o ks o' h
    induction h with
    | here => exact .here
    | mem hh _ ih => exact .mem hh ih
  induction h with
  | here => exact sr_reach (inside_sr hs).1
  | mem hh _ ih => exact .mem hh (ih hs)
  | deref ht _ ih => exact .deref ht (ih hs)

/-- The list of an object of a class has what is inside.  Each name in it that begins with a dot, put after the path of
the object, is the path of something. -/
theorem C96_class_partial {env : Env} {objs : List (Str × O)} (h : Repo env objs) {d : Str} {o : O} {ns : List Str}
    (hm : (d, o) ∈ objs) {a : Nat} {ms : Ms} (hr : Reach env o ns (.cls a ms)) :
    ∃ l, Lists (.cls a ms) l ∧
      (∃ n0, ∀ n, n0 ≤ n → ∀ args m, query env n objs (d ++ rd ns ++ b ".@list") args m = (.listing l, m)) ∧
      ∀ p ∈ l, p.head? = some dot → ∃ ks o', p = rd ks ∧ Reach env o (ns ++ ks) o' := by
  have hok : Ok (.cls a ms) := by
    have : ∀ {o1 : O} {l : List Str} {o2 : O}, Reach env o1 l o2 → Ok o1 → Ok o2 := by
      intro o1 l o2 hr
      induction hr with
      | here => exact id
      | mem hh _ ih => intro hk; simp only [Ok] at hk; exact ih (has_ok hh hk.2).2
      | deref h1 _ ih => intro _; exact ih (h.targets _ _ h1)
    exact this hr (h.ok _ hm)
  have hl := lists_cls hok
  refine ⟨_, hl, list_at h hm hr, fun p hp hd => ?_⟩
  rcases (hl.mem p).1 hp with ⟨ks, o', h1, h2⟩ | ⟨ks, tn, u, k, a', h1, rfl⟩
  · exact ⟨ks, o', h2, reach_snoc hr h1⟩
  · exact absurd hd (by simp [b, dot])

/-- The list of a smart pointer to an object of a class is the list of that object; the names can be put after the path
of the pointer. -/
theorem C96_pointer_partial {env : Env} {objs : List (Str × O)} (h : Repo env objs) {d : Str} {o : O} {ns : List Str}
    (hm : (d, o) ∈ objs) {p : Nat} (hr : Reach env o ns (.ptr p)) {a : Nat} {ms : Ms} (ht : env.target p = some (.cls a ms)) :
    ∃ l, Lists (.cls a ms) l ∧
      (∃ n0, ∀ n, n0 ≤ n → ∀ args m, query env n objs (d ++ rd ns ++ b ".@list") args m = (.listing l, m)) ∧
      ∀ q ∈ l, q.head? = some dot → ∃ ks o', q = rd ks ∧ Reach env o (ns ++ ks) o' := by
  have hl := lists_cls (h.targets _ _ ht)
  refine ⟨listed (regs [] (.cls a ms)), hl, ?_, fun q hq hd => ?_⟩
  · obtain ⟨n0, h0⟩ := list_at h hm hr
    refine ⟨n0, fun n hn args m => ?_⟩
    rw [h0 n hn args m]
    simp only [nodeList, ht]
  · rcases (hl.mem q).1 hq with ⟨ks, o', h1, h2⟩ | ⟨ks, tn, u, k, a', h1, rfl⟩
    · have : ∀ {o1 : O} {l : List Str}, Reach env o1 l (.ptr p) → Reach env o1 (l ++ ks) o' := by
        intro o1 l h3
        generalize he : O.ptr p = x at h3
        induction h3 with
        | here =>
          subst he
          have h4 := reach_snoc (env := env) (ns := []) (.here (o := .cls a ms)) h1
          cases ks with
          | nil => exact absurd rfl (inside_sr h1).2
          | cons k ks => exact .deref ht (by simpa using h4)
        | mem hh _ ih => exact .mem hh (ih he)
        | deref ht' _ ih => exact .deref ht' (ih he)
      exact ⟨ks, o', h2, this hr⟩
    · exact absurd hd (by simp [b, dot])

/-- Simple variables, enumerations and null pointers have empty lists. -/
theorem C96_empty {env : Env} {objs : List (Str × O)} (h : Repo env objs) {d : Str} {o o' : O} {ns : List Str}
    (hm : (d, o) ∈ objs) (hr : Reach env o ns o')
    (ho : (∃ k a, o' = .var k a) ∨ (∃ tn u k a, o' = .enum tn u k a) ∨ ∃ p, o' = .ptr p ∧ env.target p = none) :
    ∃ n0, ∀ n, n0 ≤ n → ∀ args m, query env n objs (d ++ rd ns ++ b ".@list") args m = (.listing [], m) := by
  obtain ⟨n0, h0⟩ := list_at h hm hr
  refine ⟨n0, fun n hn args m => ?_⟩
  rw [h0 n hn args m]
  rcases ho with ⟨k, a, rfl⟩ | ⟨tn, u, k, a, rfl⟩ | ⟨p, rfl, hp⟩
  · have : listed (regs [] (.var k a)) = [] := by
      rw [List.eq_nil_iff_forall_not_mem]
      intro q hq
      obtain ⟨h1, e, h2, h3⟩ := (mem_listed _ q).1 hq
      simp only [regs, List.mem_singleton] at h2
      exact h1 (by rw [← h3, h2])
    simp only [nodeList, this]
  · rfl
  · simp only [nodeList, hp]

/-- What is behind a smart pointer is not in the list, though there is a path to it. -/
theorem C96_fails_behind {env : Env} {objs : List (Str × O)} (h : Repo env objs) {d : Str} {o : O} {ns : List Str}
    (hm : (d, o) ∈ objs) {a : Nat} {ms : Ms} (hr : Reach env o ns (.cls a ms)) {n : Str} {p : Nat} (hp : Has ms n (.ptr p))
    {k : Str} {ks : List Str} {t o' : O} (ht : env.target p = some t) (hr' : Reach env t (k :: ks) o') :
    Reach env o (ns ++ n :: k :: ks) o' ∧
    ∃ l, rd (n :: k :: ks) ∉ l ∧
      ∃ n0, ∀ n, n0 ≤ n → ∀ args m, query env n objs (d ++ rd ns ++ b ".@list") args m = (.listing l, m) := by
  constructor
  · have : ∀ {o1 : O} {l : List Str} {c : O}, Reach env o1 l c → c = .cls a ms → Reach env o1 (l ++ n :: k :: ks) o' := by
      intro o1 l c h3 hc
      induction h3 with
      | here => subst hc; exact .mem hp (.deref ht hr')
      | mem hh _ ih => exact .mem hh (ih hc)
      | deref ht' _ ih => exact .deref ht' (ih hc)
    exact this hr rfl
  · obtain ⟨l, h1, h2, _⟩ := C96_class_partial h hm hr
    refine ⟨l, ?_, h2⟩
    intro hc
    have hokc : Ok (.cls a ms) := by
      have : ∀ {o1 : O} {l : List Str} {o2 : O}, Reach env o1 l o2 → Ok o1 → Ok o2 := by
        intro o1 l o2 hr
        induction hr with
        | here => exact id
        | mem hh _ ih => intro hk; simp only [Ok] at hk; exact ih (has_ok hh hk.2).2
        | deref h1 _ ih => intro _; exact ih (h.targets _ _ h1)
      exact this hr (h.ok _ hm)
    have hids : ∀ {o1 : O} {l : List Str} {o2 : O}, Reach env o1 l o2 → Ok o1 → ∀ x ∈ l, Ident x := by
      intro o1 l o2 hr
      induction hr with
      | here => intro _; simp
      | mem hh _ ih =>
        intro hk x hx
        simp only [Ok] at hk
        rcases List.mem_cons.1 hx with rfl | hx
        · exact (has_ok hh hk.2).1
        · exact ih (has_ok hh hk.2).2 x hx
      | deref h1 _ ih => intro _; exact ih (h.targets _ _ h1)
    have hn : ∀ x ∈ n :: k :: ks, Ident x := by
      have := hids (.mem (a := a) hp (.deref ht hr')) hokc
      simpa using this
    rcases (h1.mem _).1 hc with ⟨qs, o2, h3, h4⟩ | ⟨qs, tn, u, kk, a', h3, h4⟩
    · have h5 := (inside_sr h3).1
      have := rd_inj hn (sr_idents h5 hokc) h4
      subst this
      have hs : SR (.cls a ms) [n] (.ptr p) := .mem hp .here
      have := sr_split (ts := k :: ks) hs h5 hokc
      cases this
    · exact absurd (congrArg List.head? h4) (by simp [rd, b, dot])

/-! ### A case -/

private abbrev exEnv : Env where
  lib := ⟨.lib, 0, fun i => i.toNat, id, id⟩
  trunc := fun _ _ => none
  target := fun a => if a = 7 then some (.cls 20 (.mem (b "z") (.var .str 21) .nil)) else none
  assign := fun _ _ m => (.ok, m)

/-- An integer, an enumeration and a smart pointer. -/
abbrev C96.Sample : O := .cls 0 (.mem (b "n") (.var (.int int32) 1)
  (.mem (b "c") (.enum (b "Colour") int32 (table [(b "red", 0), (b "green", 1)]) 2) (.mem (b "p") (.ptr 7) .nil)))

/-- The name listed for an enumeration cannot be put after the path of the object, with or without a dot. -/
theorem C96_fails_enum (env : Env) (n : Nat) (args : J) (m : Mem) :
    (∃ l, b "@enum.Colour" ∈ l ∧ query env (n + 4) [(b "o", Sample)] (b "o.@list") args m = (.listing l, m)) ∧
    query env (n + 4) [(b "o", Sample)] (b "o@enum.Colour") args m = (.throw, m) ∧
    query env (n + 4) [(b "o", Sample)] (b "o.@enum.Colour") args m = (.throw, m) ∧
    query env (n + 4) [(b "o", Sample)] (b "@enum.Colour") args m = (.names [b "red", b "green"], m) := by
  have h1 : process (regOf ([(b "o", Sample)].flatMap fun e => regs e.1 e.2)) (b "o.@list") = .list (.obj 4 false) := by
    decide +kernel
  have h2 : process (regOf ([(b "o", Sample)].flatMap fun e => regs e.1 e.2)) (b "o@enum.Colour") = .notFound := by
    decide +kernel
  have h3 : process (regOf ([(b "o", Sample)].flatMap fun e => regs e.1 e.2)) (b "o.@enum.Colour") =
      .process (.obj 4 false) (b ".@enum.Colour") := by
    decide +kernel
  have h4 : process (regOf (regs [] Sample)) (b ".@enum.Colour") = .notFound := by
    decide +kernel
  have h5 : process (regOf ([(b "o", Sample)].flatMap fun e => regs e.1 e.2)) (b "@enum.Colour") =
      .process (.obj 2 false) [] := by
    decide +kernel
  refine ⟨⟨listed (regs [] Sample), ?_, ?_⟩, ?_, ?_, ?_⟩
  · decide +kernel
  · simp only [query, regProc, h1]
    rfl
  · simp only [query, regProc, h2]
  · simp only [query, regProc, h3]
    have : ([(b "o", Sample)].flatMap fun e => regs e.1 e.2)[4]? = some (b "o", .obj Sample) := rfl
    simp only [this, nodeProc, regProc, h4]
    rfl
  · simp only [query, regProc, h5]
    rfl

private theorem exRepo : Repo exEnv [(b "o", Sample)] := by
  have idb : ∀ s, s ∈ [b "o", b "n", b "c", b "p", b "z"] → Ident s := by
    intro s hs
    simp only [List.mem_cons, List.not_mem_nil, or_false] at hs
    rcases hs with rfl | rfl | rfl | rfl | rfl <;> exact ⟨by decide, by decide, by decide⟩
  refine ⟨by decide, ?_, ?_, ?_⟩
  · intro e he
    rw [List.mem_singleton.1 he]
    exact idb _ (by decide)
  · intro e he
    rw [List.mem_singleton.1 he]
    simp only [Ok, OkM, names, namesO]
    exact ⟨by decide, idb _ (by decide), trivial, idb _ (by decide), trivial, idb _ (by decide), trivial, trivial⟩
  · intro a o h
    simp only [exEnv] at h
    split at h
    · cases h
      simp only [Ok, OkM, names]
      exact ⟨by decide, idb _ (by decide), trivial, trivial⟩
    · cases h

private theorem exMem : (b "o", Sample) ∈ [(b "o", Sample)] := List.mem_singleton.2 rfl
example := C96_class_partial exRepo exMem (ns := []) (.here)
example := C96_pointer_partial exRepo exMem (ns := [b "p"]) (p := 7) (.mem (.later (.later .here)) .here) rfl
example := C96_empty exRepo exMem (ns := [b "p", b "z"]) (o' := .var .str 21)
  (.mem (.later (.later .here)) (.deref (a := 7) rfl (.mem .here .here))) (.inl ⟨_, _, rfl⟩)
example := C96_fails_behind exRepo exMem (ns := []) .here (n := b "p") (p := 7) (.later (.later .here))
  (k := b "z") (ks := []) rfl (.mem .here .here)
example : listed (regs [] Sample) = [b ".c", b ".n", b ".p", b "@enum.Colour"] := by decide +kernel

end Verif.Rest
