import Verif.PyEnum
import Verif.Props.RestObj
import Verif.Props.EnumKeys
/- C101 -/
namespace Verif.PyEnum
open Verif.Rest Verif.OMap
open Verif.EnumKeys (Keys knames table addKey mkKeys keysData ilt cast int32)
open Verif.Rest.C88 (Repo Ident Ok OkM)
open Verif.Rest.C33 (Split answer)

/-! ### Specification -/

mutual
/-- An enumeration of type `tn` with enumerators `k` is an object, a member or in a base of it, at any depth. -/
inductive C101.In (tn : Str) (k : Keys) : O → Prop
  | here {u a} : In tn k (.enum tn u k a)
  | cls {a ms} : C101.InM tn k ms → In tn k (.cls a ms)
inductive C101.InM (tn : Str) (k : Keys) : Ms → Prop
  | base {o r} : C101.In tn k o → InM tn k (.base o r)
  | mem {n o r} : C101.In tn k o → InM tn k (.mem n o r)
  | laterB {o r} : C101.InM tn k r → InM tn k (.base o r)
  | laterM {n o r} : C101.InM tn k r → InM tn k (.mem n o r)
end

/-- It is in what a program has registered: in an object, or an argument or a result, by value, of a function. -/
inductive C101.Occurs (objs : List (Str × O)) (fns : List Sig) (tn : Str) (k : Keys) : Prop
  | obj {d o} : (d, o) ∈ objs → C101.In tn k o → Occurs objs fns tn k
  | arg {f} : f ∈ fns → .enum tn k ∈ f.args → Occurs objs fns tn k
  | ret {f} : f ∈ fns → f.ret = .enum tn k → Occurs objs fns tn k

/-- An item of a dictionary. -/
def C101.item (t : Str) : List (Str × List Str) → Option (List Str)
  | [] => none
  | e :: l => if e.1 = t then some e.2 else item t l

open C101

/-! ### What is registered -/

mutual
private theorem regs_enum (d : Str) (hd : d.head? ≠ some 64) (tn : Str) (x : Node) : ∀ o : O, Ok o →
    ((b "@enum." ++ tn, x) ∈ regs d o ↔ ∃ k, x = .enums k ∧ In tn k o)
  | .var v a, _ => by
    simp only [regs, List.mem_singleton, Prod.mk.injEq]
    constructor
    · rintro ⟨h, _⟩; rw [← h] at hd; exact absurd rfl hd
    · rintro ⟨k, _, h⟩; cases h
  | .ptr a, _ => by
    simp only [regs, List.mem_singleton, Prod.mk.injEq]
    constructor
    · rintro ⟨h, _⟩; rw [← h] at hd; exact absurd rfl hd
    · rintro ⟨k, _, h⟩; cases h
  | .enum t u k a, _ => by
    simp only [regs, List.mem_cons, List.not_mem_nil, or_false, Prod.mk.injEq]
    constructor
    · rintro (⟨h, _⟩ | ⟨h, rfl⟩)
      · rw [← h] at hd; exact absurd rfl hd
      · have := List.append_cancel_left h
        subst this
        exact ⟨k, rfl, .here⟩
    · rintro ⟨k', rfl, h⟩
      cases h
      exact .inr ⟨rfl, rfl⟩
  | .cls a ms, hk => by
    simp only [Ok] at hk
    have ih := regsM_enum d hd tn x ms hk.2
    simp only [regs, List.mem_append, List.mem_singleton, Prod.mk.injEq]
    rw [ih]
    constructor
    · rintro (⟨k, h1, h2⟩ | ⟨h, _⟩)
      · exact ⟨k, h1, .cls h2⟩
      · rw [← h] at hd; exact absurd rfl hd
    · rintro ⟨k, h1, h2⟩
      cases h2 with
      | cls h2 => exact .inl ⟨k, h1, h2⟩
private theorem regsM_enum (d : Str) (hd : d.head? ≠ some 64) (tn : Str) (x : Node) : ∀ ms : Ms, OkM ms →
    ((b "@enum." ++ tn, x) ∈ regsM d ms ↔ ∃ k, x = .enums k ∧ InM tn k ms)
  | .nil, _ => by
    simp only [regsM, List.not_mem_nil, false_iff]
    rintro ⟨k, _, h⟩; cases h
  | .base o r, hk => by
    simp only [OkM] at hk
    simp only [regsM, List.mem_append]
    rw [regs_enum d hd tn x o hk.2.1, regsM_enum d hd tn x r hk.2.2]
    constructor
    · rintro (⟨k, h1, h2⟩ | ⟨k, h1, h2⟩)
      · exact ⟨k, h1, .base h2⟩
      · exact ⟨k, h1, .laterB h2⟩
    · rintro ⟨k, h1, h2⟩
      cases h2 with
      | base h => exact .inl ⟨k, h1, h⟩
      | laterB h => exact .inr ⟨k, h1, h⟩
  | .mem n o r, hk => by
    simp only [OkM] at hk
    have hd' := C88.head_dot (n := n) hd
    simp only [regsM, List.mem_append]
    rw [regs_enum _ hd' tn x o hk.2.1, regsM_enum d hd tn x r hk.2.2]
    constructor
    · rintro (⟨k, h1, h2⟩ | ⟨k, h1, h2⟩)
      · exact ⟨k, h1, .mem h2⟩
      · exact ⟨k, h1, .laterM h2⟩
    · rintro ⟨k, h1, h2⟩
      cases h2 with
      | mem h => exact .inl ⟨k, h1, h⟩
      | laterM h => exact .inr ⟨k, h1, h⟩
end

private theorem mem_defineType (t : PT) (p : Str) (x : Node) :
    (p, x) ∈ defineType t ↔ ∃ tn k, t = .enum tn k ∧ p = b "@enum." ++ tn ∧ x = .enums k := by
  cases t with
  | enum tn k =>
    simp only [defineType, List.mem_singleton, Prod.mk.injEq, PT.enum.injEq]
    constructor
    · rintro ⟨h1, h2⟩; exact ⟨tn, k, ⟨rfl, rfl⟩, h1, h2⟩
    · rintro ⟨_, _, ⟨rfl, rfl⟩, h1, h2⟩; exact ⟨h1, h2⟩
  | enumRef tn k => simp [defineType]
  | other => simp [defineType]

private theorem mem_all {env : Env} {objs : List (Str × O)} {fns : List Sig} (h : Repo env objs) (tn : Str) (x : Node) :
    (b "@enum." ++ tn, x) ∈ all objs fns ↔ ∃ k, x = .enums k ∧ Occurs objs fns tn k := by
  simp only [all, List.mem_append, List.mem_flatMap]
  constructor
  · rintro (⟨e, h1, h2⟩ | ⟨f, h1, h2⟩)
    · rw [regs_enum _ (h.ident _ h1).noat tn x _ (h.ok _ h1)] at h2
      obtain ⟨k, h3, h4⟩ := h2
      exact ⟨k, h3, .obj h1 h4⟩
    · simp only [fnRegs, List.mem_append, List.mem_flatMap, List.mem_reverse, mem_defineType] at h2
      rcases h2 with ⟨t, h2, tn', k, rfl, h3, h4⟩ | ⟨tn', k, h2, h3, h4⟩
      · have := List.append_cancel_left h3; subst this; exact ⟨k, h4, .arg h1 h2⟩
      · have := List.append_cancel_left h3; subst this; exact ⟨k, h4, .ret h1 h2⟩
  · rintro ⟨k, h1, h2⟩
    cases h2 with
    | obj h2 h3 =>
      refine .inl ⟨_, h2, ?_⟩
      rw [regs_enum _ (h.ident _ h2).noat tn x _ (h.ok _ h2)]
      exact ⟨k, h1, h3⟩
    | arg h2 h3 =>
      refine .inr ⟨_, h2, ?_⟩
      simp only [fnRegs, List.mem_append, List.mem_flatMap, List.mem_reverse, mem_defineType]
      exact .inl ⟨_, h3, tn, k, rfl, rfl, h1⟩
    | ret h2 h3 =>
      refine .inr ⟨_, h2, ?_⟩
      simp only [fnRegs, List.mem_append, List.mem_flatMap, List.mem_reverse, mem_defineType]
      exact .inr ⟨tn, k, h3, rfl, h1⟩

private theorem all_names {env : Env} {objs : List (Str × O)} {fns : List Sig} (h : Repo env objs) (e : Str × Node)
    (he : e ∈ all objs fns) : (∃ n, e.1 = b "@enum." ++ n) ∨ e.1.head? ≠ some 64 := by
  simp only [all, List.mem_append, List.mem_flatMap] at he
  rcases he with ⟨x, h1, h2⟩ | ⟨f, h1, h2⟩
  · rcases C88.regs_names x.2 x.1 e (h.ok _ h1) h2 with ⟨ks, _, _, h3⟩ | h3
    · right
      have hi := h.ident _ h1
      rw [h3]
      cases hx : x.1 with
      | nil => exact absurd hx hi.ne
      | cons c r => have := hi.noat; rw [hx] at this; simpa using this
    · exact .inl h3
  · left
    simp only [fnRegs, List.mem_append, List.mem_flatMap] at h2
    rcases h2 with ⟨t, _, h2⟩ | h2
    · obtain ⟨tn, _, _, h3, _⟩ := (mem_defineType _ e.1 e.2).1 h2; exact ⟨tn, h3⟩
    · obtain ⟨tn, _, _, h3, _⟩ := (mem_defineType _ e.1 e.2).1 h2; exact ⟨tn, h3⟩

/-! ### The registry -/

private theorem opsFrom_append (i : Nat) (a c : List (Str × Node)) :
    opsFrom i (a ++ c) = opsFrom i a ++ opsFrom (i + a.length) c := by
  induction a generalizing i with
  | nil => simp [opsFrom]
  | cons e a ih =>
    simp only [List.cons_append, opsFrom, ih, List.length_cons]
    rw [show i + 1 + a.length = i + (a.length + 1) by omega]

private theorem opOf_name (i : Nat) (e : Str × Node) : (opOf i e).name = e.1 := by
  match e with
  | (d, .obj (.var _ _)) => rfl
  | (d, .obj (.enum _ _ _ _)) => rfl
  | (d, .obj (.cls _ _)) => rfl
  | (d, .obj (.ptr _)) => rfl
  | (d, .enums _) => rfl

private theorem opsFrom_names (i : Nat) (rs : List (Str × Node)) : ∀ op ∈ opsFrom i rs, ∃ e ∈ rs, op.name = e.1 := by
  induction rs generalizing i with
  | nil => simp [opsFrom]
  | cons e rs ih =>
    intro op h
    simp only [opsFrom, List.mem_cons] at h
    rcases h with rfl | h
    · exact ⟨e, by simp, opOf_name i e⟩
    · obtain ⟨e', h1, h2⟩ := ih _ op h
      exact ⟨e', by simp [h1], h2⟩

private theorem last_split {α : Type} (p : Str) (rs : List (Str × α)) (h : ∃ x, (p, x) ∈ rs) :
    ∃ pre x post, rs = pre ++ (p, x) :: post ∧ ∀ e ∈ post, e.1 ≠ p := by
  induction rs with
  | nil => obtain ⟨x, h⟩ := h; cases h
  | cons e rs ih =>
    by_cases hr : ∃ x, (p, x) ∈ rs
    · obtain ⟨pre, x, post, h1, h2⟩ := ih hr
      exact ⟨e :: pre, x, post, by simp [h1], h2⟩
    · obtain ⟨x, h⟩ := h
      rcases List.mem_cons.1 h with rfl | h
      · exact ⟨[], x, rs, rfl, fun e he hp => hr ⟨e.2, by rw [← hp]; exact he⟩⟩
      · exact absurd ⟨x, h⟩ hr

private theorem find_enums {rs : List (Str × Node)} {p : Str} (h : ∃ x, (p, x) ∈ rs)
    (hk : ∀ x, (p, x) ∈ rs → ∃ k, x = .enums k) :
    ∃ i k, mfind strLt p (regOf rs) = some (.obj i false) ∧ rs[i]? = some (p, .enums k) := by
  obtain ⟨pre, x, post, rfl, h2⟩ := last_split p rs h
  obtain ⟨k, rfl⟩ := hk x (by simp)
  refine ⟨pre.length, k, ?_, by simp⟩
  simp only [regOf, opsFrom_append, opsFrom, opOf, Nat.zero_add]
  apply C35_object
  intro op ho hp
  obtain ⟨e, h4, h5⟩ := opsFrom_names _ _ op ho
  exact absurd (h5.symm.trans hp) (h2 e h4)

/-- A type that occurs, asked for by name: its enumerators. -/
private theorem ask {env : Env} {objs : List (Str × O)} {fns : List Sig} (h : Repo env objs) (m : Mem) {tn : Str}
    (hl : tn ≠ b "@list") {k0 : Keys} (ho : Occurs objs fns tn k0) :
    ∃ k, Occurs objs fns tn k ∧
      regProc env 2 (all objs fns) (b "@enum." ++ tn) .null m = (.names (knames k), m) := by
  obtain ⟨i, k, h1, h2⟩ := find_enums (rs := all objs fns) (p := b "@enum." ++ tn)
    ⟨_, (mem_all h tn (.enums k0)).2 ⟨k0, rfl, ho⟩⟩ (fun x hx => by
      obtain ⟨k, h1, _⟩ := (mem_all h tn x).1 hx
      exact ⟨k, h1⟩)
  have hne : b "@enum." ++ tn ≠ b "@enum.@list" := by
    intro e
    exact hl (List.append_cancel_left (as := b "@enum.") e)
  have hp : process (regOf (all objs fns)) (b "@enum." ++ tn) = .process (.obj i false) [] := by
    rw [C33_longest_partial (p := b "@enum." ++ tn) (rest := []) hne (by simp [b]) ⟨by simp, .inl rfl⟩ h1 (by
      intro p' rest' hs hlen
      have := congrArg List.length hs.eq
      simp only [List.length_append] at this hlen
      omega)]
    simp [answer, b]
  refine ⟨k, ?_, ?_⟩
  · obtain ⟨k', h3, h4⟩ := (mem_all h tn (.enums k)).1 (List.mem_of_getElem? h2)
    cases h3; exact h4
  · simp only [regProc, hp, h2, nodeProc]

private theorem key_iff {env : Env} {objs : List (Str × O)} {fns : List Sig} (h : Repo env objs) (tn : Str) :
    (b "@enum." ++ tn) ∈ (regOf (all objs fns)).map (·.1) ↔ ∃ k, Occurs objs fns tn k := by
  have hs := C35.build_sorted (opsFrom 0 (all objs fns))
  constructor
  · intro hm
    refine Classical.byContradiction fun hn => ?_
    have := C88.find_none (rs := all objs fns) (p := b "@enum." ++ tn) (by
      intro e he hp
      obtain ⟨k, _, h2⟩ := (mem_all h tn e.2).1 (by rw [← hp]; exact he)
      exact hn ⟨k, h2⟩)
    exact (mfind_none_iff strOrd hs _).1 this hm
  · rintro ⟨k, ho⟩
    refine Classical.byContradiction fun hn => ?_
    have h1 := (mfind_none_iff strOrd hs _).2 hn
    obtain ⟨i, k', h2, _⟩ := find_enums (rs := all objs fns) (p := b "@enum." ++ tn)
      ⟨_, (mem_all h tn (.enums k)).2 ⟨k, rfl, ho⟩⟩ (fun x hx => by
        obtain ⟨k, h1, _⟩ := (mem_all h tn x).1 hx
        exact ⟨k, h1⟩)
    rw [show mfind strLt (b "@enum." ++ tn) (build (opsFrom 0 (all objs fns))) = some (.obj i false) from h2] at h1
    cases h1

private theorem list_iff {env : Env} {objs : List (Str × O)} {fns : List Sig} (h : Repo env objs) :
    ∃ l, process (regOf (all objs fns)) (b "@enum.@list") = .enums l ∧
      ∀ tn, tn ∈ l ↔ ∃ k, Occurs objs fns tn k := by
  obtain ⟨l, h1, h2⟩ := C61_enums_partial (regOf (all objs fns)) (by
    intro e he hp
    have hm : e.1 ∈ (regOf (all objs fns)).map (·.1) := List.mem_map.2 ⟨e, he, rfl⟩
    have : ∃ x ∈ all objs fns, x.1 = e.1 := by
      refine Classical.byContradiction fun hn => ?_
      have := C88.find_none (rs := all objs fns) (p := e.1) (fun x hx hp => hn ⟨x, hx, hp⟩)
      exact (mfind_none_iff strOrd (C35.build_sorted _) _).1 this hm
    obtain ⟨x, h1, h2⟩ := this
    rcases all_names h x h1 with ⟨n, h3⟩ | h3
    · exact ⟨n, h2 ▸ h3⟩
    · rw [h2] at h3
      obtain ⟨r, hr⟩ := hp
      rw [← hr] at h3
      exact absurd rfl h3)
  refine ⟨l, h1, fun tn => ?_⟩
  rw [← key_iff h tn]
  constructor
  · intro ht
    have : (b "@enum." ++ tn) ∈ l.map (b "@enum." ++ ·) := List.mem_map.2 ⟨tn, ht, rfl⟩
    rw [h2] at this
    exact (List.mem_filter.1 this).1
  · intro ht
    have : (b "@enum." ++ tn) ∈ l.map (b "@enum." ++ ·) := by
      rw [h2]
      exact List.mem_filter.2 ⟨ht, by simp⟩
    obtain ⟨t, h3, h4⟩ := List.mem_map.1 this
    have := List.append_cancel_left h4
    exact this ▸ h3

/-! ### The dictionary -/

private theorem item_setItem (t n : Str) (v : List Str) (d : List (Str × List Str)) :
    item t (Python.setItem n v d) = if t = n then some v else item t d := by
  induction d with
  | nil =>
    simp only [Python.setItem, item]
    by_cases h : t = n
    · subst h; simp
    · rw [if_neg h, if_neg fun e => h e.symm]
  | cons e d ih =>
    simp only [Python.setItem]
    by_cases he : e.1 = n
    · rw [if_pos he]
      simp only [item]
      by_cases h : t = n
      · subst h; simp
      · rw [if_neg h, if_neg fun e => h e.symm, if_neg fun e' : e.1 = t => h (e'.symm.trans he)]
    · rw [if_neg he]
      simp only [item, ih]
      by_cases h1 : e.1 = t
      · subst h1; simp [he]
      · simp [h1]

private theorem fill_spec {env : Env} {rs : List (Str × Node)} {m : Mem} {f : Str → List Str} :
    ∀ (l : List Str) (d : List (Str × List Str)),
    (∀ n ∈ l, (regProc env 2 rs (b "@enum." ++ n) .null m).1 = .names (f n)) →
    ∃ d', fill env rs m l d = some d' ∧ ∀ t, item t d' = if t ∈ l then some (f t) else item t d
  | [], d, _ => ⟨d, rfl, by simp⟩
  | n :: l, d, h => by
    obtain ⟨d', h1, h2⟩ := fill_spec l (Python.setItem n (f n) d) (fun x hx => h x (by simp [hx]))
    refine ⟨d', by simp only [fill, h n (by simp)]; exact h1, fun t => ?_⟩
    rw [h2, item_setItem]
    by_cases h3 : t = n
    · subst h3; simp
    · simp [h3]

/-- C101, the types: the dictionary has exactly the enumerations that are objects, members, in bases, at any depth, or arguments
or results by value, each with the names in its table. -/
theorem C101_types_partial {env : Env} {objs : List (Str × O)} {fns : List Sig} (h : Repo env objs) (m : Mem)
    (hl : ∀ tn k, Occurs objs fns tn k → tn ≠ b "@list")
    (h1 : ∀ tn k k', Occurs objs fns tn k → Occurs objs fns tn k' → k = k') :
    ∃ d, enumDict env objs fns m = some d ∧ ∀ tn,
      (∀ k, Occurs objs fns tn k → item tn d = some (knames k)) ∧
      ((∀ k, ¬ Occurs objs fns tn k) → item tn d = none) := by
  obtain ⟨l, h2, h3⟩ := list_iff (fns := fns) h
  have hf : ∀ tn, ∃ x : List Str, (∀ k, Occurs objs fns tn k → x = knames k ∧
      (regProc env 2 (all objs fns) (b "@enum." ++ tn) .null m).1 = .names x) := by
    intro tn
    by_cases ho : ∃ k, Occurs objs fns tn k
    · obtain ⟨k0, ho⟩ := ho
      obtain ⟨k, h4, h5⟩ := ask h m (hl _ _ ho) ho
      exact ⟨knames k, fun k' hk' => ⟨by rw [h1 _ _ _ h4 hk'], by rw [h5]⟩⟩
    · exact ⟨[], fun k hk => absurd ⟨k, hk⟩ ho⟩
  obtain ⟨f, hf⟩ := Classical.axiomOfChoice hf
  obtain ⟨d, h4, h5⟩ := fill_spec (env := env) (rs := all objs fns) (m := m) (f := f) l [] (fun n hn => by
    obtain ⟨k, hk⟩ := (h3 n).1 hn
    exact (hf n k hk).2)
  refine ⟨d, by simp only [enumDict, h2]; exact h4, fun tn => ⟨fun k hk => ?_, fun hn => ?_⟩⟩
  · rw [h5, if_pos ((h3 tn).2 ⟨k, hk⟩), (hf tn k hk).1]
  · rw [h5, if_neg fun ht => by obtain ⟨k, hk⟩ := (h3 tn).1 ht; exact hn k hk]; rfl

private theorem lastName_some {v : Int} {decl : List (Str × Int)} {n : Str} :
    EnumKeys.lastName v decl = some n ↔ ∃ l r, decl = l ++ (n, v) :: r ∧ v ∉ r.map (·.2) := by
  induction decl with
  | nil => simp [EnumKeys.lastName]
  | cons x r ih =>
    obtain ⟨n', w⟩ := x
    constructor
    · intro h
      by_cases hr : v ∈ r.map (·.2)
      · have : EnumKeys.lastName v ((n', w) :: r) = EnumKeys.lastName v r := by
          simp only [EnumKeys.lastName, List.filter_cons]
          split
          · rw [List.getLast?_cons]
            have hne : (r.filter fun e => e.2 == v) ≠ [] := by
              obtain ⟨e, h1, h2⟩ := List.mem_map.1 hr
              intro h3
              exact (List.filter_eq_nil_iff.1 h3 e h1) (by simp [h2])
            obtain ⟨y, hy⟩ := List.getLast?_isSome.2 hne |> Option.isSome_iff_exists.1
            simp [hy]
          · rfl
        rw [this] at h
        obtain ⟨l, r', h1, h2⟩ := ih.1 h
        exact ⟨(n', w) :: l, r', by simp [h1], h2⟩
      · have hnil : (r.filter fun e => e.2 == v) = [] := by
          apply List.filter_eq_nil_iff.2
          intro e he hv
          exact hr (List.mem_map.2 ⟨e, he, by simpa using hv⟩)
        by_cases hw : w = v
        · subst hw
          simp [EnumKeys.lastName, hnil] at h
          subst h
          exact ⟨[], r, rfl, hr⟩
        · simp [EnumKeys.lastName, hnil, hw] at h
    · rintro ⟨l, r', h1, h2⟩
      have hnil : (r'.filter fun e => e.2 == v) = [] := by
        apply List.filter_eq_nil_iff.2
        intro e he hv
        exact h2 (List.mem_map.2 ⟨e, he, by simpa using hv⟩)
      rw [h1]
      simp [EnumKeys.lastName, List.filter_append, hnil]

/-- C101, the names: those listed are the enumerators after which no other of the same value is declared: all of them if the
values are distinct. -/
theorem C101_names_partial {u : EnumKeys.Under} (hu : EnumKeys.Narrow u) {decl : List (Str × Int)}
    (hd : EnumKeys.Decl u decl) (n : Str) :
    (n ∈ knames (table decl) ↔ ∃ l v r, decl = l ++ (n, v) :: r ∧ v ∉ r.map (·.2)) ∧
    ((decl.map (·.2)).Nodup → (n ∈ knames (table decl) ↔ n ∈ decl.map (·.1))) := by
  have h1 : n ∈ knames (table decl) ↔ ∃ l v r, decl = l ++ (n, v) :: r ∧ v ∉ r.map (·.2) := by
    obtain ⟨_, hv, hn, _⟩ := EnumKeys.C19_iterate_partial hu hd
    rw [hn, List.mem_map]
    constructor
    · rintro ⟨v, h1, h2⟩
      obtain ⟨⟨n0, v0⟩, h3, rfl⟩ := List.mem_map.1 ((hv v).1 h1)
      rw [EnumKeys.C19_value hu hd v0 (hd.range _ h3)] at h2
      cases hl : EnumKeys.lastName v0 decl with
      | none =>
        simp only [EnumKeys.lastName, Option.map_eq_none_iff, List.getLast?_eq_none_iff, List.filter_eq_nil_iff] at hl
        exact absurd (by simp) (hl _ h3)
      | some s =>
        rw [hl] at h2
        simp only [Option.getD_some] at h2
        subst h2
        obtain ⟨l, r, h4⟩ := lastName_some.1 hl
        exact ⟨l, v0, r, h4⟩
    · rintro ⟨l, v, r, h2, h3⟩
      have hm : (n, v) ∈ decl := by rw [h2]; simp
      refine ⟨v, (hv v).2 (List.mem_map.2 ⟨_, hm, rfl⟩), ?_⟩
      rw [EnumKeys.C19_value hu hd v (hd.range _ hm), lastName_some.2 ⟨l, r, h2, h3⟩]
      rfl
  refine ⟨h1, fun hnd => ?_⟩
  rw [h1]
  constructor
  · rintro ⟨l, v, r, h2, _⟩
    rw [h2]; simp
  · intro h
    obtain ⟨⟨n0, v⟩, h2, rfl⟩ := List.mem_map.1 h
    obtain ⟨l, r, rfl⟩ := List.append_of_mem h2
    refine ⟨l, v, r, rfl, ?_⟩
    simp only [List.map_append, List.map_cons, List.nodup_append, List.nodup_cons] at hnd
    exact hnd.2.1.1

/-- C101 fails: of two enumerators of the same value, the first is not in the list. -/
theorem C101_fails_alias {u : EnumKeys.Under} (hu : EnumKeys.Narrow u) {l r t : List (Str × Int)} {n n' : Str} {v : Int}
    (hd : EnumKeys.Decl u (l ++ (n, v) :: r ++ (n', v) :: t)) : n ∉ knames (table (l ++ (n, v) :: r ++ (n', v) :: t)) := by
  rw [(C101_names_partial hu hd n).1]
  rintro ⟨a, w, c, h1, h2⟩
  have hm : (n, v) ∈ a ++ (n, w) :: c := by rw [← h1]; simp
  have hnd := hd.names
  have hw : w = v := by
    have h3 : (n, w) ∈ l ++ (n, v) :: r ++ (n', v) :: t := by rw [h1]; simp
    have ho1 := EnumKeys.C19_name hu hd n w h3
    have ho2 := EnumKeys.C19_name hu hd n v (by simp)
    rw [← ho1, ho2]
  subst hw
  have : a = l ∧ c = r ++ (n', w) :: t := by
    rw [List.append_assoc, List.cons_append] at h1
    have hn : ((l ++ (n, w) :: (r ++ (n', w) :: t)).map (·.1)).Nodup := by
      have := hd.names
      rwa [List.append_assoc, List.cons_append] at this
    have hn' : ((a ++ (n, w) :: c).map (·.1)).Nodup := by rw [← h1]; exact hn
    have key : ∀ (a l : List (Str × Int)) (c d : List (Str × Int)), a ++ (n, w) :: c = l ++ (n, w) :: d →
        (∀ e ∈ a, e.1 ≠ n) → (∀ e ∈ l, e.1 ≠ n) → a = l ∧ c = d := by
      intro a
      induction a with
      | nil =>
        intro l c d h ha hl
        cases l with
        | nil => simp at h; exact ⟨rfl, h⟩
        | cons x l => simp at h; exact absurd (by rw [← h.1]) (hl x (by simp))
      | cons y a ih =>
        intro l c d h ha hl
        cases l with
        | nil => simp at h; exact absurd (by rw [h.1]) (ha y (by simp))
        | cons x l =>
          simp only [List.cons_append, List.cons.injEq] at h
          obtain ⟨h1, h2⟩ := ih l c d h.2 (fun e he => ha e (by simp [he])) (fun e he => hl e (by simp [he]))
          exact ⟨by rw [h.1, h1], h2⟩
    simp only [List.map_append, List.map_cons, List.nodup_append, List.nodup_cons] at hn hn'
    exact key a l c _ h1.symm (fun e he hen => hn'.2.2 e.1 (List.mem_map.2 ⟨e, he, rfl⟩) n (by simp) hen)
      (fun e he hen => hn.2.2 e.1 (List.mem_map.2 ⟨e, he, rfl⟩) n (by simp) hen)
  exact h2 (by rw [this.2]; simp)

/-- C101 fails: an enumeration that is only behind a smart pointer is not in the dictionary, whatever the pointer points
to. -/
theorem C101_fails_pointer {env : Env} {objs : List (Str × O)} (h : Repo env objs) (m : Mem)
    (hp : ∀ e ∈ objs, ∃ a, e.2 = .ptr a) :
    ∃ d, enumDict env objs [] m = some d ∧ ∀ tn, item tn d = none := by
  have hno : ∀ tn k, ¬ Occurs objs [] tn k := by
    rintro tn k (⟨h1, h2⟩ | ⟨h1, _⟩ | ⟨h1, _⟩)
    · obtain ⟨a, ha⟩ := hp _ h1
      simp only at ha
      subst ha
      cases h2
    · cases h1
    · cases h1
  obtain ⟨d, h1, h2⟩ := C101_types_partial (fns := []) h m (fun tn k ho => absurd ho (hno tn k))
    (fun tn k _ ho => absurd ho (hno tn k))
  exact ⟨d, h1, fun tn => (h2 tn).2 (hno tn)⟩

/-- C101 fails: nor is one that is only taken or returned by reference. -/
theorem C101_fails_reference {env : Env} (fns : List Sig) (m : Mem) (ht : ∀ a o, env.target a = some o → Ok o)
    (hp : ∀ f ∈ fns, (∀ t ∈ f.args, ∃ tn k, t = .enumRef tn k) ∧ ∃ tn k, f.ret = .enumRef tn k) :
    ∃ d, enumDict env [] fns m = some d ∧ ∀ tn, item tn d = none := by
  have hno : ∀ tn k, ¬ Occurs [] fns tn k := by
    rintro tn k (⟨h1, h2⟩ | ⟨h1, h2⟩ | ⟨h1, h2⟩)
    · cases h1
    · obtain ⟨_, _, h3⟩ := (hp _ h1).1 _ h2; cases h3
    · obtain ⟨_, _, h3⟩ := (hp _ h1).2; rw [h2] at h3; cases h3
  obtain ⟨d, h1, h2⟩ := C101_types_partial (env := env) (objs := []) (fns := fns) ⟨by simp, by simp, by simp, ht⟩ m
    (fun tn k ho => absurd ho (hno tn k)) (fun tn k _ ho => absurd ho (hno tn k))
  exact ⟨d, h1, fun tn => (h2 tn).2 (hno tn)⟩

/-- An object of a class with an enumeration in it and a function returning another: both are in the dictionary. -/
example (env : Env) (m : Mem) : enumDict env
    [(b "x", .cls 0 (.mem (b "c") (.enum (b "Colour") int32 (table [(b "red", 0), (b "blue", 1)]) 1) .nil))]
    [⟨[.enumRef (b "Size") (table [(b "big", 0)])], .enum (b "Shape") (table [(b "disc", 3), (b "ball", 2)])⟩] m
    = some [(b "Colour", [b "red", b "blue"]), (b "Shape", [b "ball", b "disc"])] := by
  have e1 : process (regOf (all
    [(b "x", .cls 0 (.mem (b "c") (.enum (b "Colour") int32 (table [(b "red", 0), (b "blue", 1)]) 1) .nil))]
    [⟨[.enumRef (b "Size") (table [(b "big", 0)])], .enum (b "Shape") (table [(b "disc", 3), (b "ball", 2)])⟩]))
    (b "@enum.@list") = .enums [b "Colour", b "Shape"] := by decide +kernel
  have e2 : process (regOf (all
    [(b "x", .cls 0 (.mem (b "c") (.enum (b "Colour") int32 (table [(b "red", 0), (b "blue", 1)]) 1) .nil))]
    [⟨[.enumRef (b "Size") (table [(b "big", 0)])], .enum (b "Shape") (table [(b "disc", 3), (b "ball", 2)])⟩]))
    (b "@enum." ++ b "Colour") = .process (.obj 1 false) [] := by decide +kernel
  have e3 : process (regOf (all
    [(b "x", .cls 0 (.mem (b "c") (.enum (b "Colour") int32 (table [(b "red", 0), (b "blue", 1)]) 1) .nil))]
    [⟨[.enumRef (b "Size") (table [(b "big", 0)])], .enum (b "Shape") (table [(b "disc", 3), (b "ball", 2)])⟩]))
    (b "@enum." ++ b "Shape") = .process (.obj 3 false) [] := by decide +kernel
  simp only [enumDict, e1, fill, regProc, e2, e3]
  rfl

end Verif.PyEnum
