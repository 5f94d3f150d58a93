import Verif.PyMod
import Verif.Props.RestObj
/-
C90: attributes of a Python module, and calling them.
-/
namespace Verif.PyMod
open Verif.Rest Verif.OMap
open Verif.Json (J dot)
open Verif.EnumKeys (InRange int32)
open Verif.Rest.C88 (Ident Has Ok OkM Reach Repo SR rd names namesO)

/-! ### Attributes that come from the registry -/

private theorem fold_none {P X : Type} (f : X → Option (Str × A P)) (x : Str) : ∀ (r : List X) (ms : Ms P),
    (∀ e ∈ r, ∀ a, f e ≠ some (x, a)) →
    (r.foldl (fun ms e => match f e with | some (n, a) => upd ms n (some a) | none => ms) ms) x = ms x
  | [], _, _ => rfl
  | e :: r, ms, h => by
    simp only [List.foldl_cons]
    rw [fold_none f x r _ fun e' he' => h e' (by simp [he'])]
    have := h e (by simp)
    cases hf : f e with
    | none => rfl
    | some q =>
      obtain ⟨n, a⟩ := q
      simp only [upd]
      rw [if_neg]
      rintro rfl
      exact this a hf

private theorem fold_some {P X : Type} (f : X → Option (Str × A P)) (x : Str) (a : A P) : ∀ (r : List X) (ms : Ms P),
    (∃ e ∈ r, f e = some (x, a)) → (∀ e ∈ r, ∀ a', f e = some (x, a') → a' = a) →
    (r.foldl (fun ms e => match f e with | some (n, a) => upd ms n (some a) | none => ms) ms) x = some a
  | [], _, ⟨_, h, _⟩, _ => by cases h
  | e :: r, ms, h, hu => by
    simp only [List.foldl_cons]
    by_cases hr : ∃ e' ∈ r, f e' = some (x, a)
    · exact fold_some f x a r _ hr fun e' he' => hu e' (by simp [he'])
    · have he : f e = some (x, a) := by
        obtain ⟨e', h1, h2⟩ := h
        rcases List.mem_cons.1 h1 with rfl | h1
        · exact h2
        · exact absurd ⟨e', h1, h2⟩ hr
      rw [fold_none]
      · simp [he, upd]
      · intro e' he' a' hf
        have := hu e' (by simp [he']) a' hf
        subst this
        exact hr ⟨e', he', hf⟩

private theorem attrOf_eq {pre key n : Str} {sp : Bool} (h : attrOf pre key = some (n, sp)) :
    dot ∉ n ∧ (key = pre ++ n ∧ sp = false ∧ n.head? ≠ some 64 ∨ ∃ t, n = 95 :: t ∧ key = pre ++ 64 :: t ∧ sp = true) := by
  unfold attrOf at h
  split at h
  · rename_i hp
    obtain ⟨m, rfl⟩ := hp
    simp only [List.drop_left] at h
    split at h
    · cases h
    · rename_i hd
      split at h
      · rename_i t _
        cases h
        refine ⟨?_, .inr ⟨_, rfl, rfl, rfl⟩⟩
        intro hh
        rcases List.mem_cons.1 hh with hh | hh
        · exact absurd hh (by decide)
        · exact hd (by simp [hh])
      · rename_i hne
        cases h
        refine ⟨hd, .inl ⟨rfl, rfl, ?_⟩⟩
        cases n with
        | nil => simp
        | cons c t =>
          simp only [List.head?_cons]
          intro hc
          cases hc
          exact hne t rfl
  · cases h

private theorem attrOf_of {pre n : Str} (hd : dot ∉ n) (hn : n.head? ≠ some 64) :
    attrOf pre (pre ++ n) = some (n, false) := by
  unfold attrOf
  rw [if_pos ⟨n, rfl⟩]
  simp only [List.drop_left]
  rw [if_neg hd]
  split
  · simp at hn
  · rfl

private theorem depth_lt {P : Type} : ∀ {r : Rg P} {e : Str × P}, e ∈ r → e.1.length < depth r
  | x :: r, e, h => by
    simp only [depth]
    rcases List.mem_cons.1 h with rfl | h
    · omega
    · have := depth_lt h; omega

private theorem attach_eq {P : Type} {r : Rg P} (hs : Sorted strLt r) {k : Nat} {pre n : Str}
    (hk : depth r ≤ k + pre.length) (hd : dot ∉ n) (hn : n.head? ≠ some 64)
    (hc : ∀ t, n = 95 :: t → mfind strLt (pre ++ 64 :: t) r = none) :
    attach r k pre n = (mfind strLt (pre ++ n) r).map fun p => .wrap false p (attach r (k - 1) (pre ++ n ++ [dot])) := by
  cases k with
  | zero =>
    cases hf : mfind strLt (pre ++ n) r with
    | none => rfl
    | some p =>
      have := depth_lt ((mfind_iff_mem strOrd hs _ _).1 hf)
      simp only [List.length_append] at this
      omega
  | succ k =>
    let f : Str × P → Option (Str × A P) := fun e =>
      (attrOf pre e.1).map fun q => (q.1, .wrap q.2 e.2 (attach r k (e.1 ++ [dot])))
    have hfold : attach r (k + 1) pre =
        r.foldl (fun ms e => match f e with | some (n, a) => upd ms n (some a) | none => ms) none' := by
      unfold attach
      congr 1
      funext ms e
      simp only [f]
      cases attrOf pre e.1 with
      | none => rfl
      | some q => rfl
    have hinv : ∀ e ∈ r, ∀ a, f e = some (n, a) →
        e.1 = pre ++ n ∧ a = .wrap false e.2 (attach r k (pre ++ n ++ [dot])) := by
      intro e he a hfe
      simp only [f, Option.map_eq_some_iff] at hfe
      obtain ⟨⟨n', sp⟩, h1, h2⟩ := hfe
      simp only [Prod.mk.injEq] at h2
      obtain ⟨rfl, rfl⟩ := h2
      rcases (attrOf_eq h1).2 with ⟨h3, rfl, _⟩ | ⟨t, h3, h4, _⟩
      · exact ⟨h3, by rw [h3]⟩
      · have := hc t h3
        rw [mfind_none_iff strOrd hs] at this
        exact absurd (List.mem_map.2 ⟨e, he, h4⟩) this
    rw [hfold]
    cases hf : mfind strLt (pre ++ n) r with
    | none =>
      rw [fold_none f n]
      · rfl
      · intro e he a hfe
        rw [mfind_none_iff strOrd hs] at hf
        exact hf (List.mem_map.2 ⟨e, he, (hinv e he a hfe).1⟩)
    | some p =>
      have hm := (mfind_iff_mem strOrd hs _ _).1 hf
      rw [fold_some f n (.wrap false p (attach r k (pre ++ n ++ [dot])))]
      · rfl
      · refine ⟨_, hm, ?_⟩
        simp only [f, attrOf_of hd hn, Option.map_some]
      · intro e he a hfe
        obtain ⟨h1, h2⟩ := hinv e he a hfe
        have : mfind strLt (pre ++ n) r = some e.2 := (mfind_iff_mem strOrd hs _ _).2 (by rw [← h1]; exact he)
        rw [hf] at this
        cases this
        exact h2

private theorem module_eq {P : Type} {r : Rg P} (hs : Sorted strLt r) {n : Str} (hi : Ident n) :
    initModule r n = (mfind strLt n r).map fun p => .wrap false p (attach r (depth r) (n ++ [dot])) := by
  let f : Str × P → Option (Str × A P) := fun e =>
    if e.1 = [] ∨ dot ∈ e.1 ∨ e.1.head? = some 64 then none
    else some (e.1, .wrap false e.2 (attach r (depth r) (e.1 ++ [dot])))
  have hfold : initModule r =
      r.foldl (fun ms e => match f e with | some (n, a) => upd ms n (some a) | none => ms) none' := by
    unfold initModule
    congr 1
    funext ms e
    simp only [f]
    by_cases h : e.1 = [] ∨ dot ∈ e.1 ∨ e.1.head? = some 64
    · simp only [if_pos h]
    · simp only [if_neg h]
  have hinv : ∀ e ∈ r, ∀ a, f e = some (n, a) → e.1 = n ∧ a = .wrap false e.2 (attach r (depth r) (n ++ [dot])) := by
    intro e _ a h
    simp only [f] at h
    split at h
    · cases h
    · simp only [Option.some.injEq, Prod.mk.injEq] at h
      obtain ⟨h1, h2⟩ := h
      exact ⟨h1, by rw [← h2, h1]⟩
  rw [hfold]
  cases hf : mfind strLt n r with
  | none =>
    rw [fold_none f n]
    · rfl
    · intro e he a hfe
      rw [mfind_none_iff strOrd hs] at hf
      exact hf (List.mem_map.2 ⟨e, he, (hinv e he a hfe).1⟩)
  | some p =>
    have hm := (mfind_iff_mem strOrd hs _ _).1 hf
    rw [fold_some f n (.wrap false p (attach r (depth r) (n ++ [dot])))]
    · rfl
    · refine ⟨_, hm, ?_⟩
      simp only [f]
      rw [if_neg]
      simp only [hi.ne, hi.nodot, hi.noat, or_self, not_false_eq_true]
    · intro e he a hfe
      obtain ⟨h1, h2⟩ := hinv e he a hfe
      have : mfind strLt n r = some e.2 := (mfind_iff_mem strOrd hs _ _).2 (by rw [← h1]; exact he)
      rw [hf] at this
      cases this
      exact h2

private theorem take_rd (n : Str) (ns : List Str) (k : Nat) : rd ((n :: ns).take (k + 1)) = dot :: n ++ rd (ns.take k) := by
  simp [rd]

private theorem path_static {P S : Type} (I : Iface P S) (s : S) {r : Rg P} (hs : Sorted strLt r) :
    ∀ (ns : List Str) (k : Nat) (q : Str) (p : P), depth r ≤ k + (q.length + 1) →
    (∀ n ∈ ns, Ident n ∧ n.head? ≠ some 95) → mfind strLt q r = some p →
    (∀ j, j ≤ ns.length → (mfind strLt (q ++ rd (ns.take j)) r).isSome = true) →
    ∃ p' ms, mfind strLt (q ++ rd ns) r = some p' ∧
      getPath I s (.wrap false p (attach r k (q ++ [dot]))) ns = some (.wrap false p' ms)
  | [], k, q, p, _, _, hq, _ => ⟨p, _, by simpa [rd] using hq, rfl⟩
  | n :: ns, k, q, p, hk, hn, hq, hj => by
    obtain ⟨p1, hp1⟩ := Option.isSome_iff_exists.1 (hj 1 (by simp))
    have hq1 : q ++ rd ((n :: ns).take 1) = q ++ [dot] ++ n := by simp [rd]
    rw [hq1] at hp1
    have hid := hn n (by simp)
    have hat := attach_eq hs (k := k) (pre := q ++ [dot]) (n := n) (by simpa using hk) hid.1.nodot hid.1.noat (by
      intro t ht
      exact absurd (by rw [ht]; rfl) hid.2)
    rw [hp1] at hat
    have hlen : 0 < n.length := List.length_pos_iff.2 hid.1.ne
    obtain ⟨p', ms, h1, h2⟩ := path_static I s hs ns (k - 1) (q ++ [dot] ++ n) p1 (by
        simp only [List.length_append, List.length_singleton]; omega)
      (fun x hx => hn x (by simp [hx])) hp1 (fun j hjl => by
        have := hj (j + 1) (by simpa using hjl)
        rw [take_rd] at this
        simpa using this)
    refine ⟨p', ms, by simpa [rd] using h1, ?_⟩
    simp only [getPath, getAttr, hat, Option.map_some, Option.bind_some]
    exact h2

/-- A dotted path all of whose beginnings are registered: in Python it is the wrapper of what a REST request with
that path is processed by, with nothing left of the path. -/
theorem C90_static_partial {S : Type} (I : Iface Ent S) (s : S) {r : Reg} (hs : Sorted strLt r) {d : Str}
    {ns : List Str} (hd : Ident d) (hn : ∀ n ∈ ns, Ident n ∧ n.head? ≠ some 95)
    (hj : ∀ j, j ≤ ns.length → (mfind strLt (d ++ rd (ns.take j)) r).isSome = true) :
    ∃ e ms, expr I s (initModule r) (d :: ns) = some (.wrap false e ms) ∧ process r (d ++ rd ns) = .process e [] := by
  obtain ⟨p, hp⟩ := Option.isSome_iff_exists.1 (hj 0 (by simp))
  simp only [List.take_zero, rd, List.append_nil] at hp
  obtain ⟨p', ms, h1, h2⟩ := path_static I s hs ns (depth r) d p (by omega) hn hp hj
  refine ⟨p', ms, ?_, ?_⟩
  · simp only [expr, module_eq hs hd, hp, Option.map_some, Option.bind_some]
    exact h2
  · have hne : d ++ rd ns ≠ [] := by simp [hd.ne]
    have hen : d ++ rd ns ≠ b "@enum.@list" := by
      intro h
      have := congrArg List.head? h
      cases d with
      | nil => exact hd.ne rfl
      | cons c d =>
        have h64 : (b "@enum.@list").head? = some 64 := rfl
        rw [h64] at this
        exact hd.noat (by simpa using this)
    have := C33_longest_partial (r := r) hen hne (rest := []) ⟨by simp, .inl rfl⟩ h1 (by
      intro q' rest' hsp hlt
      have := hsp.1
      have := congrArg List.length this
      simp only [List.length_append] at this hlt
      omega)
    rw [this]
    simp [C33.answer, C33.Meta, b]

/-! ### Objects -/

private theorem filter_sorted {V W : Type} (g : V → Option W) : ∀ {r : List (Str × V)}, Sorted strLt r →
    Sorted strLt (r.filterMap fun e => (g e.2).map fun w => (e.1, w))
  | [], _ => trivial
  | (k, v) :: r, h => by
    have ih := filter_sorted g h.2
    simp only [List.filterMap_cons]
    cases hg : g v with
    | none => simpa [hg] using ih
    | some w =>
      simp only [Option.map_some]
      refine ⟨?_, ih⟩
      intro e he
      obtain ⟨e', h1, h2⟩ := List.mem_filterMap.1 he
      obtain ⟨w', _, rfl⟩ := Option.map_eq_some_iff.1 h2
      exact h.1 e' h1

private theorem filter_find {V W : Type} (g : V → Option W) {r : List (Str × V)} (h : Sorted strLt r) (k : Str) :
    mfind strLt k (r.filterMap fun e => (g e.2).map fun w => (e.1, w)) = (mfind strLt k r).bind g := by
  cases hf : mfind strLt k r with
  | none =>
    rw [mfind_none_iff strOrd h] at hf
    rw [Option.bind_none, mfind_none_iff strOrd (filter_sorted g h)]
    intro hk
    apply hf
    obtain ⟨e, h1, h2⟩ := List.mem_map.1 hk
    obtain ⟨e', h3, h4⟩ := List.mem_filterMap.1 h1
    obtain ⟨w', _, rfl⟩ := Option.map_eq_some_iff.1 h4
    exact List.mem_map.2 ⟨e', h3, h2⟩
  | some v =>
    have hm := (mfind_iff_mem strOrd h _ _).1 hf
    simp only [Option.bind_some]
    cases hg : g v with
    | none =>
      rw [mfind_none_iff strOrd (filter_sorted g h)]
      intro hk
      obtain ⟨e, h1, h2⟩ := List.mem_map.1 hk
      obtain ⟨e', h3, h4⟩ := List.mem_filterMap.1 h1
      obtain ⟨w', h5, rfl⟩ := Option.map_eq_some_iff.1 h4
      simp only at h2
      have : mfind strLt k r = some e'.2 := (mfind_iff_mem strOrd h _ _).2 (by rw [← h2]; exact h3)
      rw [hf] at this
      cases this
      rw [hg] at h5
      cases h5
    | some w =>
      exact (mfind_iff_mem strOrd (filter_sorted g h) _ _).2
        (List.mem_filterMap.2 ⟨_, hm, by simp only [hg, Option.map_some]⟩)

private def pick (rs : List (Str × Rest.Node)) : Ent → Option Cmd
  | .obj i _ => (rs[i]?).map fun x => .node x.2
  | _ => none

private theorem nodes_eq (rs : List (Str × Rest.Node)) :
    nodes rs = (regOf rs).filterMap fun e => (pick rs e.2).map fun w => (e.1, w) := by
  unfold nodes
  congr 1
  funext e
  cases e.2 with
  | obj i w => cases hi : rs[i]? <;> simp [pick, hi]
  | fn f => rfl
  | over fs => rfl

private theorem nodes_sorted (rs : List (Str × Rest.Node)) : Sorted strLt (nodes rs) := by
  rw [nodes_eq]
  exact filter_sorted _ (C35.build_sorted _)

private theorem nodes_find (rs : List (Str × Rest.Node)) (p : Str) :
    mfind strLt p (nodes rs) = (mfind strLt p (regOf rs)).bind (pick rs) := by
  rw [nodes_eq]
  exact filter_find _ (C35.build_sorted _) p

private theorem nodes_counts {rs : List (Str × Rest.Node)} {p : Str} {o : O} (h : C88.Counts rs p o) :
    mfind strLt p (nodes rs) = some (.node (.obj o)) := by
  obtain ⟨i, h1, h2⟩ := C88.find_counts h
  rw [nodes_find, h1]
  simp [pick, h2]

private theorem nodes_none {rs : List (Str × Rest.Node)} {p : Str} (h : ∀ e ∈ rs, e.1 ≠ p) :
    mfind strLt p (nodes rs) = none := by
  rw [nodes_find, C88.find_none h]
  rfl

/-- Is there an `@` after a dot? -/
private def bad : Str → Bool
  | a :: c :: r => (a == dot && c == 64) || bad (c :: r)
  | _ => false

private theorem bad_cons {c : UInt8} (hc : c ≠ dot) (x : Str) : bad (c :: x) = bad x := by
  cases x with
  | nil => rfl
  | cons a x => simp [bad, hc]

private theorem bad_append {x : Str} (h : dot ∉ x) (y : Str) : bad (x ++ y) = bad y := by
  induction x with
  | nil => rfl
  | cons c x ih =>
    rw [List.cons_append, bad_cons (by rintro rfl; exact h (by simp)), ih (fun hh => h (by simp [hh]))]

private theorem bad_rd {ks : List Str} (h : ∀ n ∈ ks, Ident n) : bad (rd ks) = false := by
  induction ks with
  | nil => rfl
  | cons n ks ih =>
    have hn := h n (by simp)
    cases n with
    | nil => exact absurd rfl hn.ne
    | cons c n =>
      have h1 : c ≠ 64 := by rintro rfl; exact hn.noat rfl
      have h2 : bad ((c :: n) ++ rd ks) = false := by
        rw [bad_append hn.nodot]
        exact ih fun x hx => h x (by simp [hx])
      show bad (dot :: c :: (n ++ rd ks)) = false
      simp only [bad]
      rw [show (c :: (n ++ rd ks)) = (c :: n) ++ rd ks from rfl, h2]
      simp [h1]

private theorem bad_of (u v : Str) : bad (u ++ dot :: 64 :: v) = true := by
  induction u with
  | nil => simp [bad]
  | cons c u ih =>
    cases u with
    | nil => simp [bad]
    | cons a u =>
      simp only [List.cons_append] at ih ⊢
      simp only [bad, ih, Bool.or_true]

private theorem no_clash {env : Env} {objs : List (Str × O)} (h : Repo env objs) {d : Str} (hd : Ident d) (q t : Str) :
    mfind strLt (d ++ q ++ dot :: 64 :: t) (nodes (objs.flatMap fun e => regs e.1 e.2)) = none := by
  apply nodes_none
  intro e he heq
  obtain ⟨x, hx, hex⟩ := List.mem_flatMap.1 he
  rcases C88.regs_names x.2 x.1 e (h.ok _ hx) hex with ⟨ks, o', h1, h2⟩ | ⟨tn, h2⟩
  · have h3 : bad (x.1 ++ rd ks) = false := by
      rw [bad_append (h.ident _ hx).nodot, bad_rd (C88.sr_idents h1 (h.ok _ hx))]
    rw [← h2, heq, bad_of] at h3
    cases h3
  · rw [heq] at h2
    have h3 := congrArg List.head? h2
    have h4 : (b "@enum." ++ tn).head? = some 64 := rfl
    rw [h4] at h3
    cases d with
    | nil => exact hd.ne rfl
    | cons c d => exact hd.noat (by simpa using h3)

private theorem root_counts {rs : List (Str × Rest.Node)} {d : Str} {o : O} (h : C88.Root rs d o) {ks : List Str}
    {o' : O} (hs : SR o ks o') : C88.Counts rs (d ++ rd ks) o' := by
  obtain ⟨l, r, rfl, hlr⟩ := h.split
  have hi := C88.sr_idents hs h.ok
  have side : ∀ e, e ∈ l ∨ e ∈ r → e.1 ≠ d ++ rd ks := by
    intro e he heq
    rcases hlr e he with ⟨tn, h2⟩ | h2
    · exact C88.enum_ne h.head (h2.symm.trans heq)
    · exact h2 ks [] (fun n hn => (hi n hn).nodot) (.inl rfl) (by simpa using heq)
  exact C88.counts_right (C88.counts_left (C88.counts hs h.ok h.head) l fun e he => side e (.inl he)) r
    fun e he => side e (.inr he)

/-- Fresh wrappers, whose attributes are found by `list()`. -/
private theorem path_fresh {env : Env} (shw : O → Mem → J) (n : Nat) (m : Mem)
    (ht : ∀ a o, env.target a = some o → Ok o ∧ ∀ a', o ≠ .ptr a') {o : O} {ns : List Str} {o' : O}
    (hr : Reach env o ns o') : Ok o →
    ∃ ms, getPath (iface env shw n) m (.wrap false (.node (.obj o)) none') ns = some (.wrap false (.node (.obj o')) ms) := by
  induction hr with
  | here => intro _; exact ⟨_, rfl⟩
  | @mem a ms x oc ns o' hh _ ih =>
    intro hk
    have h1 : mfind strLt (dot :: x) (nodes (regs [] (.cls a ms))) = some (.node (.obj oc)) := by
      have := nodes_counts (C88.counts (SR.mem (a := a) hh .here) hk (d := []) (by simp))
      simpa [rd] using this
    simp only [Ok] at hk
    obtain ⟨ms', h2⟩ := ih (C88.has_ok hh hk.2).2
    refine ⟨ms', ?_⟩
    simp only [getPath, getAttr, none', iface, h1, Option.bind_some]
    exact h2
  | @deref a o x ns o' hta hr ih =>
    intro _
    obtain ⟨hok, hnp⟩ := ht a o hta
    obtain ⟨ms', h2⟩ := ih hok
    refine ⟨ms', ?_⟩
    rw [← h2]
    have : (iface env shw n).list (.node (.obj (.ptr a))) m = (iface env shw n).list (.node (.obj o)) m ∨
        ∃ tn u k a', o = .enum tn u k a' := by
      cases o with
      | var k a' => left; simp only [iface, hta]
      | cls a' ms => left; simp only [iface, hta]
      | ptr a' => exact absurd rfl (hnp a')
      | enum tn u k a' => exact .inr ⟨_, _, _, _, rfl⟩
    rcases this with h3 | ⟨tn, u, k, a', rfl⟩
    · have hm : ∀ y, y ∈ methods → getAttr (iface env shw n) m (.wrap false (.node (.obj o)) none') x ≠
          some (.meth y (.node (.obj o))) := by
        intro y _ h4
        simp only [getPath, h4, Option.bind_some] at h2
        cases ns with
        | nil => simp [getPath] at h2
        | cons z ns => simp [getPath, getAttr] at h2
      simp only [getPath]
      congr 1
      have hx : getAttr (iface env shw n) m (.wrap false (.node (.obj o)) none') x ≠ none := by
        intro h4
        simp only [getPath, h4, Option.bind_none] at h2
        cases h2
      simp only [getAttr, none', h3] at hm hx ⊢
      cases hf : mfind strLt (dot :: x) ((iface env shw n).list (.node (.obj o)) m) with
      | some p => rfl
      | none =>
        simp only [hf] at hm hx ⊢
        by_cases hxm : x ∈ methods
        · exact absurd (by rw [if_pos hxm]) (hm x hxm)
        · rw [if_neg hxm] at hx
          exact absurd rfl hx
    · cases hr

private theorem path_obj {env : Env} (shw : O → Mem → J) (n : Nat) (m : Mem) {objs : List (Str × O)}
    (h : Repo env objs) (ht : ∀ a o, env.target a = some o → ∀ a', o ≠ .ptr a') {d : Str} {root : O}
    (hm : (d, root) ∈ objs) {o : O} {ns : List Str} {o' : O} (hr : Reach env o ns o') :
    ∀ (k : Nat) (ks : List Str), SR root ks o →
    depth (nodes (objs.flatMap fun e => regs e.1 e.2)) ≤ k + ((d ++ rd ks).length + 1) →
    ∃ ms, getPath (iface env shw n) m (.wrap false (.node (.obj o))
      (attach (nodes (objs.flatMap fun e => regs e.1 e.2)) k (d ++ rd ks ++ [dot]))) ns =
      some (.wrap false (.node (.obj o')) ms) := by
  have hroot := C88.repo_root h hm
  have hd := h.ident _ hm
  have hsort := nodes_sorted (objs.flatMap fun e => regs e.1 e.2)
  induction hr with
  | here => intro k ks _ _; exact ⟨_, rfl⟩
  | @mem a ms x oc ns o' hh _ ih =>
    intro k ks hs hk
    have hs' := C88.sr_snoc hs hh
    have hx : Ident x := C88.sr_idents hs' hroot.ok x (by simp)
    have h1 := nodes_counts (root_counts hroot hs')
    have h2 := attach_eq hsort (k := k) (pre := d ++ rd ks ++ [dot]) (n := x) (by simpa [Nat.add_assoc] using hk)
      hx.nodot hx.noat (by
        intro t _
        have := no_clash h hd (rd ks) t
        simpa using this)
    have h3 : d ++ rd ks ++ [dot] ++ x = d ++ rd (ks ++ [x]) := by
      rw [C88.rd_append]; simp [rd]
    rw [h3, h1] at h2
    obtain ⟨ms', h4⟩ := ih (k - 1) (ks ++ [x]) hs' (by
      rw [← h3]
      simp only [List.length_append, List.length_singleton] at hk ⊢
      omega)
    refine ⟨ms', ?_⟩
    simp only [getPath, getAttr, h2, Option.map_some, Option.bind_some]
    exact h4
  | @deref a o x ns o' hta hr' ih =>
    intro k ks hs hk
    have hrd : Reach env (.ptr a) (x :: ns) o' := .deref hta hr'
    have hx : Ident x := by
      cases hr' with
      | mem hh _ => have := h.targets _ _ hta; simp only [Ok] at this; exact (C88.has_ok hh this.2).1
      | deref _ _ => exact absurd rfl (ht _ _ hta _)
    have hks := C88.sr_idents hs hroot.ok
    have h3 : d ++ rd ks ++ [dot] ++ x = d ++ rd (ks ++ [x]) := by
      rw [C88.rd_append]; simp [rd]
    have hall : ∀ y ∈ ks ++ [x], Ident y := by
      intro y hy
      rcases List.mem_append.1 hy with hy | hy
      · exact hks y hy
      · rw [List.mem_singleton.1 hy]; exact hx
    have h1 : mfind strLt (d ++ rd (ks ++ [x])) (nodes (objs.flatMap fun e => regs e.1 e.2)) = none := by
      apply nodes_none
      intro e he heq
      obtain ⟨ks', ts, o'', h5, h6, _, h8⟩ := C88.root_names hroot (fun y hy => (hall y hy).nodot) (by simp [hd.ne]) (rest := []) (.inl rfl)
        (by simp) e he heq
      have : ts = [] := by
        cases ts with
        | nil => rfl
        | cons t ts => simp [rd] at h8
      subst this
      rw [List.append_nil] at h6
      subst h6
      cases C88.sr_split hs h5 hroot.ok
    have h2 := attach_eq hsort (k := k) (pre := d ++ rd ks ++ [dot]) (n := x) (by simpa [Nat.add_assoc] using hk)
      hx.nodot hx.noat (by
        intro t _
        have := no_clash h hd (rd ks) t
        simpa using this)
    rw [h3, h1] at h2
    obtain ⟨ms', h4⟩ := path_fresh shw n m (fun a o e => ⟨h.targets a o e, ht a o e⟩) hrd trivial
    refine ⟨ms', ?_⟩
    rw [← h4]
    simp only [getPath, getAttr, h2, Option.map_none, none']

/-- Names lead from an object of the module to another, by members and smart pointers that do not point to smart
pointers: in Python they give a wrapper of it. -/
theorem C90_member_partial {env : Env} (shw : O → Mem → J) (n : Nat) (m : Mem) {objs : List (Str × O)}
    (h : Repo env objs) (ht : ∀ a o, env.target a = some o → ∀ a', o ≠ .ptr a') {d : Str} {o o' : O}
    (hm : (d, o) ∈ objs) {ns : List Str} (hr : Reach env o ns o') :
    ∃ ms, expr (iface env shw n) m (moduleOf objs) (d :: ns) = some (.wrap false (.node (.obj o')) ms) := by
  have h1 := nodes_counts (root_counts (C88.repo_root h hm) (SR.here (o := o)))
  simp only [rd, List.append_nil] at h1
  obtain ⟨ms, h2⟩ := path_obj shw n m h ht hm hr (depth (nodes (objs.flatMap fun e => regs e.1 e.2))) [] .here (by omega)
  refine ⟨ms, ?_⟩
  simp only [expr, moduleOf, module_eq (nodes_sorted _) (h.ident _ hm), h1, Option.map_some, Option.bind_some]
  simpa [rd] using h2

/-- Calling it with arguments is the REST request with that path and the list of the arguments: the variables are
afterwards the same, and the result is that of the request made into a Python object. -/
theorem C90_call_partial {env : Env} (shw : O → Mem → J) (write : J → Str) {objs : List (Str × O)}
    (h : Repo env objs) (ht : ∀ a o, env.target a = some o → ∀ a', o ≠ .ptr a') {d : Str} {o o' : O}
    (hm : (d, o) ∈ objs) {ns : List Str} (hr : Reach env o ns o') (j : J) (js : List J) (N : Nat) :
    ∃ n0, ∀ n, n0 ≤ n → ∀ m, ∃ n', N ≤ n' ∧ ∃ a, expr (iface env shw n') m (moduleOf objs) (d :: ns) = some a ∧
      callA (iface env shw n') write a (j :: js) m =
        (match ofRO (query env n objs (d ++ rd ns) (.arr (j :: js)) m).1 with
          | .res p => returnResult (iface env shw n') p (query env n objs (d ++ rd ns) (.arr (j :: js)) m).2
          | .throw => .error
          | .ub => .ub
          | .other => .other,
        (query env n objs (d ++ rd ns) (.arr (j :: js)) m).2) := by
  obtain ⟨n0, h0⟩ := C88.arrive h hm hr N
  refine ⟨n0, fun n hn m => ?_⟩
  obtain ⟨n', h1, h2⟩ := h0 n hn (.arr (j :: js)) m
  obtain ⟨ms, h3⟩ := C90_member_partial shw n' m h ht hm hr
  refine ⟨n', h1, _, h3, ?_⟩
  rw [h2]
  simp only [callA, call]
  rw [if_neg (by simp)]
  simp only [iface, Bool.false_eq_true, if_false]
  generalize nodeProc env n' (.obj o') [] (.arr (j :: js)) m = q
  obtain ⟨r, m'⟩ := q
  cases r <;> rfl

/-- A simple variable: called without arguments it gives the value, and nothing changes. -/
theorem C90_get_partial {env : Env} (shw : O → Mem → J) (write : J → Str) (n : Nat) (m : Mem) {objs : List (Str × O)}
    (h : Repo env objs) (ht : ∀ a o, env.target a = some o → ∀ a', o ≠ .ptr a') {d : Str} {o : O}
    (hm : (d, o) ∈ objs) {ns : List Str} {k : VK} {x : Nat} (hr : Reach env o ns (.var k x)) :
    ∃ a, expr (iface env shw n) m (moduleOf objs) (d :: ns) = some a ∧
      callA (iface env shw n) write a [] m = (.value (showVar env.lib (m x)), m) := by
  obtain ⟨ms, h3⟩ := C90_member_partial shw n m h ht hm hr
  refine ⟨_, h3, ?_⟩
  simp [callA, call, iface, bufO]

/-- Called with an argument of its type: the variable, and nothing else, has that value, which is returned. -/
theorem C90_set_partial {env : Env} (shw : O → Mem → J) (write : J → Str) (n : Nat) (m : Mem) {objs : List (Str × O)}
    (h : Repo env objs) (ht : ∀ a o, env.target a = some o → ∀ a', o ≠ .ptr a') {d : Str} {o : O}
    (hm : (d, o) ∈ objs) {ns : List Str} {k : VK} {x : Nat} (hr : Reach env o ns (.var k x)) {j : J} {v : VV}
    (hf : C88.Fits k j v) (js : List J) :
    ∃ a m', expr (iface env shw (n + 3)) m (moduleOf objs) (d :: ns) = some a ∧
      callA (iface env shw (n + 3)) write a (j :: js) m = (.value (showVar env.lib v), m') ∧
      m' x = v ∧ ∀ y, y ≠ x → m' y = m y := by
  obtain ⟨ms, h3⟩ := C90_member_partial shw (n + 3) m h ht hm hr
  refine ⟨_, m.put x v, h3, ?_, by simp [Mem.put], fun y hy => by simp [Mem.put, hy]⟩
  have h4 : nodeProc env (n + 3) (.obj (.var k x)) [] (.arr (j :: js)) m = (.ref (.var k x), m.put x v) := by
    cases hf with
    | int hi h64 => simp [nodeProc, objProc, convO, convVar, after', C88.cast_of_inRange, hi, h64]
    | bool => simp [nodeProc, objProc, convO, convVar, after']
    | real => simp [nodeProc, objProc, convO, convVar, after']
    | str => simp [nodeProc, objProc, convO, convVar, after']
  have h5 : showVar env.lib v = .null ∨ (∃ y, showVar env.lib v = .bool y) ∨ (∃ y, showVar env.lib v = .int y) ∨
      (∃ y, showVar env.lib v = .real y) ∨ ∃ y, showVar env.lib v = .str y := by
    cases v with
    | int i => simp [showVar]
    | bool y => simp [showVar]
    | real r => simp only [showVar]; split <;> simp
    | str s => simp [showVar]
  simp only [callA, call]
  rw [if_neg (by simp)]
  simp only [iface, h4, ofRO, returnResult, bufO, Mem.put, if_true, Bool.false_eq_true, if_false]
  rcases h5 with h5 | ⟨y, h5⟩ | ⟨y, h5⟩ | ⟨y, h5⟩ | ⟨y, h5⟩ <;> simp [h5]

/-! ### Where it is otherwise -/

/-- Assigning to an attribute that comes from the registry changes no variable: the attribute is from then on the
Python object, and what it stood for is out of reach. -/
theorem C90_fails_assign {P S : Type} (I : Iface P S) (s : S) (v : Python.PyT) (n : Str) : ∀ (ns : List Str) (a c : A P),
    (∀ (ks ts : List Str) (x : Str), ns = ks ++ x :: ts → ∀ sp cmd ms, getPath I s a ks = some (.wrap sp cmd ms) →
      (ms x).isSome = true) →
    getPath I s a ns = some c → (∃ sp cmd ms, c = .wrap sp cmd ms) →
    ∃ a', setPath I s a ns n (some (.py v)) = some a' ∧ getPath I s a' (ns ++ [n]) = some (.py v)
  | [], a, c, _, hg, ⟨sp, cmd, ms, hc⟩ => by
    simp only [getPath, Option.some.injEq] at hg
    subst hg
    subst hc
    exact ⟨_, rfl, by simp [getPath, getAttr, upd]⟩
  | x :: ns, a, c, hst, hg, hc => by
    cases a with
    | py v => simp [getPath, getAttr] at hg
    | meth k cmd => simp [getPath, getAttr] at hg
    | wrap sp cmd ms =>
      obtain ⟨a1, h1⟩ := Option.isSome_iff_exists.1 (hst [] ns x rfl sp cmd ms rfl)
      simp only [getPath, getAttr, h1, Option.bind_some] at hg
      obtain ⟨a', h2, h3⟩ := C90_fails_assign I s v n ns a1 c (by
        intro ks ts y e sp' cmd' ms' hg'
        refine hst (x :: ks) ts y (by simp [e]) sp' cmd' ms' ?_
        simp only [getPath, getAttr, h1, Option.bind_some]
        exact hg') hg hc
      refine ⟨.wrap sp cmd (upd ms x (some a')), by simp [setPath, h1, h2], ?_⟩
      simp only [List.cons_append, getPath, getAttr, upd, if_true, Option.bind_some]
      exact h3

/-- Behind a smart pointer an assignment does not even last: everything is as before. -/
theorem C90_fails_lost {P S : Type} (I : Iface P S) (s : S) (sp : Bool) (cmd : P) (ms : Ms P) (x : Str) (xs : List Str)
    (n : Str) (v : Option (A P)) (h : ms x = none) (a' : A P) (hs : setPath I s (.wrap sp cmd ms) (x :: xs) n v = some a') :
    a' = .wrap sp cmd ms := by
  simp only [setPath, h] at hs
  split at hs
  · obtain ⟨_, _, rfl⟩ := Option.map_eq_some_iff.1 hs; rfl
  · cases hs

/-- A smart pointer to a smart pointer: its members cannot be named in Python, except by the names of the methods of
wrappers, though a REST request finds them. -/
theorem C90_fails_pointers {env : Env} (shw : O → Mem → J) (n : Nat) (m : Mem) (a a' : Nat)
    (ht : env.target a = some (.ptr a')) (x : Str) (hx : x ∉ methods)
    (sp : Bool) (ws : Ms Cmd) (hw : ws x = none) :
    getAttr (iface env shw n) m (.wrap sp (.node (.obj (.ptr a))) ws) x = none := by
  have h1 : mfind strLt (dot :: x) (nodes (regs [] (.ptr a'))) = none := by
    apply nodes_none
    intro e he
    simp only [regs, List.mem_singleton] at he
    subst he
    simp
  simp only [getAttr, hw, iface, ht, h1, if_neg hx]

/-- The members of what a function returns, named as attributes of the function: using them is undefined. -/
theorem C90_fails_function {env : Env} (shw : O → Mem → J) (write : J → Str) (n : Nat) (m : Mem) {a : Nat} {ms : Rest.Ms}
    (hk : Ok (.cls a ms)) {x : Str} {o : O} (hh : Has ms x o) (sp : Bool) (ws : Ms Cmd) (hw : ws x = none)
    (args : List J) :
    ∃ w, getAttr (iface env shw n) m (.wrap sp (.fn (.cls a ms)) ws) x = some w ∧
      (callA (iface env shw n) write w args m).1 = .ub := by
  have h1 : mfind strLt (dot :: x) (nodes (regs [] (.cls a ms))) = some (.node (.obj o)) := by
    have := nodes_counts (C88.counts (SR.mem (a := a) hh .here) hk (d := []) (by simp))
    simpa [rd] using this
  have h2 : mfind strLt (dot :: x) ((nodes (regs [] (.cls a ms))).map fun e => (e.1, Cmd.dead)) = some .dead := by
    have h3 := filter_find (fun _ => some Cmd.dead) (nodes_sorted (regs [] (.cls a ms))) (dot :: x)
    rw [h1] at h3
    simpa [List.filterMap_eq_map] using h3
  refine ⟨.wrap false .dead none', ?_, ?_⟩
  · simp only [getAttr, hw, iface, h2]
  · cases args with
    | nil => simp [callA, call, iface]
    | cons j js => simp [callA, call, iface]

/-- A sequence that a call returned has attributes `_elem`, `_elemNoThrow`, `_erase` and `_insert`; calling them is
an exception whatever the arguments, and the sequence is unchanged. -/
theorem C90_fails_elem {E : Type} (shw : E → J) (write : J → Str) (xs : List E) (args : List J) (n : Str)
    (hn : n ∈ [b "_elem", b "_elemNoThrow", b "_erase", b "_insert"]) :
    ∃ w a, returnResult (seqIface shw) .seq xs = .wrap w ∧ getAttr (seqIface shw) xs w n = some a ∧
      callA (seqIface shw) write a args xs = (.error, xs) := by
  have key : ∀ r : Rg SCmd, r = (seqIface shw).list .seq xs → ∀ (k : Str) (c : SCmd) (sp : Bool),
      (k, c, sp) ∈ [(b "_elem", SCmd.elem, true), (b "_elemNoThrow", .elemNoThrow, true), (b "_erase", .erase, true),
        (b "_insert", .insert, true)] → ∃ ms, attach r (depth r) [dot] k = some (.wrap sp c ms) := by
    intro r hr k c sp hk
    subst hr
    simp only [List.mem_cons, List.not_mem_nil, or_false, Prod.mk.injEq] at hk
    rcases hk with ⟨rfl, rfl, rfl⟩ | ⟨rfl, rfl, rfl⟩ | ⟨rfl, rfl, rfl⟩ | ⟨rfl, rfl, rfl⟩ <;> exact ⟨_, rfl⟩
  simp only [List.mem_cons, List.not_mem_nil, or_false] at hn
  rcases hn with rfl | rfl | rfl | rfl
  · obtain ⟨ms, h⟩ := key _ rfl (b "_elem") .elem true (by simp)
    refine ⟨_, .wrap true .elem ms, rfl, by simp only [getAttr, h], ?_⟩
    cases args <;> simp [callA, call, seqIface]
  · obtain ⟨ms, h⟩ := key _ rfl (b "_elemNoThrow") .elemNoThrow true (by simp)
    refine ⟨_, .wrap true .elemNoThrow ms, rfl, by simp only [getAttr, h], ?_⟩
    cases args <;> simp [callA, call, seqIface]
  · obtain ⟨ms, h⟩ := key _ rfl (b "_erase") .erase true (by simp)
    refine ⟨_, .wrap true .erase ms, rfl, by simp only [getAttr, h], ?_⟩
    cases args <;> simp [callA, call, seqIface]
  · obtain ⟨ms, h⟩ := key _ rfl (b "_insert") .insert true (by simp)
    refine ⟨_, .wrap true .insert ms, rfl, by simp only [getAttr, h], ?_⟩
    cases args <;> simp [callA, call, seqIface]

/-- The same sequence as a registered object: those attributes do not exist. -/
theorem C90_fails_elem_registered {E : Type} (shw : E → J) (xs : List E) (sp : Bool) (ws : Ms SCmd) (n : Str)
    (hn : n ∈ [b "_elem", b "_elemNoThrow", b "_erase", b "_insert", b "_size"]) (hw : ws n = none) :
    getAttr (seqIface shw) xs (.wrap sp .seq ws) n = none := by
  simp only [getAttr, hw, seqIface]
  simp only [List.mem_cons, List.not_mem_nil, or_false] at hn
  rcases hn with rfl | rfl | rfl | rfl | rfl <;> rfl

/-- What is registered under a dotted name, without the part before the first dot being registered, is not to be had
in Python; a REST request finds it. -/
theorem C90_fails_unregistered {S : Type} (I : Iface Ent S) (s : S) {r : Reg} (hs : Sorted strLt r) {d : Str}
    {ns : List Str} (hd : Ident d) (hn : ∀ n ∈ ns, Ident n) {e : Ent} (he : mfind strLt (d ++ rd ns) r = some e)
    (h : mfind strLt d r = none) :
    expr I s (initModule r) (d :: ns) = none ∧ process r (d ++ rd ns) = .process e [] := by
  refine ⟨by simp [expr, module_eq hs hd, h], ?_⟩
  have hne : d ++ rd ns ≠ [] := by simp [hd.ne]
  have hen : d ++ rd ns ≠ b "@enum.@list" := by
    intro h
    have := congrArg List.head? h
    cases d with
    | nil => exact hd.ne rfl
    | cons c d =>
      have h64 : (b "@enum.@list").head? = some 64 := rfl
      rw [h64] at this
      exact hd.noat (by simpa using this)
  have := C33_longest_partial (r := r) hen hne (rest := []) ⟨by simp, .inl rfl⟩ he (by
    intro q' rest' hsp hlt
    have := hsp.1
    have := congrArg List.length this
    simp only [List.length_append] at this hlt
    omega)
  rw [this]
  simp [C33.answer, C33.Meta, b]

/-! ### Instances -/

def C90.exEnv : Env where
  lib := ⟨.lib, 0, fun i => i.toNat, id, id⟩
  trunc := fun _ r => if r < 100 then some r else none
  target := fun a => if a = 9 then some (.cls 20 (.mem (b "z") (.var .str 21) .nil)) else none
  assign := fun _ _ m => (.ok, m)

/-- A class with a base, a member of a class and a pointer. -/
def C90.exObj : O :=
  .cls 1 (.base (.cls 1 (.mem (b "id") (.var (.int int32) 2) .nil))
    (.mem (b "p") (.cls 3 (.mem (b "x") (.var .real 4) (.mem (b "y") (.var .real 5) .nil)))
    (.mem (b "q") (.ptr 9) .nil)))

def C90.exObjs : List (Str × O) := [(b "o", C90.exObj), (b "n", .ptr 8)]

theorem C90.exRepo : Repo C90.exEnv C90.exObjs := by
  have idb : ∀ s, s ∈ [b "o", b "n", b "id", b "p", b "q", b "x", b "y", b "z"] → Ident s := by
    intro s hs
    simp only [List.mem_cons, List.not_mem_nil, or_false] at hs
    rcases hs with rfl | rfl | rfl | rfl | rfl | rfl | rfl | rfl <;> exact ⟨by decide, by decide, by decide⟩
  refine ⟨by decide, ?_, ?_, ?_⟩
  · intro e he
    simp only [C90.exObjs, List.mem_cons, List.not_mem_nil, or_false] at he
    rcases he with rfl | rfl
    · exact idb _ (by decide)
    · exact idb _ (by decide)
  · intro e he
    simp only [C90.exObjs, List.mem_cons, List.not_mem_nil, or_false] at he
    rcases he with rfl | rfl
    · simp only [C90.exObj, Ok, OkM, names, namesO]
      refine ⟨by decide, ⟨_, _, rfl⟩, ⟨by decide, idb _ (by decide), trivial, trivial⟩, idb _ (by decide),
        ⟨by decide, idb _ (by decide), trivial, idb _ (by decide), trivial, trivial⟩, idb _ (by decide), trivial,
        trivial⟩
    · trivial
  · intro a o h
    simp only [C90.exEnv] at h
    split at h
    · cases h
      simp only [Ok, OkM, names]
      exact ⟨by decide, idb _ (by decide), trivial, trivial⟩
    · cases h

theorem C90.exTargets : ∀ a o, C90.exEnv.target a = some o → ∀ a', o ≠ .ptr a' := by
  intro a o h a'
  simp only [C90.exEnv] at h
  split at h
  · cases h; simp
  · cases h

private theorem reachZ : Reach C90.exEnv C90.exObj [b "q", b "z"] (.var .str 21) :=
  .mem (.afterBase (.later .here)) (.deref rfl (.mem .here .here))
theorem C90.reachY : Reach C90.exEnv C90.exObj [b "p", b "y"] (.var .real 5) :=
  .mem (.afterBase .here) (.mem (.later .here) .here)
theorem C90.reachId : Reach C90.exEnv C90.exObj [b "id"] (.var (.int int32) 2) := .mem (.inBase .here) .here

example (shw : O → Mem → J) (m : Mem) :
    ∃ ms, expr (iface C90.exEnv shw 4) m (moduleOf C90.exObjs) [b "o", b "q", b "z"] =
      some (.wrap false (.node (.obj (.var .str 21))) ms) :=
  C90_member_partial shw 4 m C90.exRepo C90.exTargets (by simp [C90.exObjs]) reachZ

example (shw : O → Mem → J) (write : J → Str) (m : Mem) :
    ∃ a, expr (iface C90.exEnv shw 4) m (moduleOf C90.exObjs) [b "o", b "p", b "y"] = some a ∧
      callA (iface C90.exEnv shw 4) write a [] m = (.value (showVar C90.exEnv.lib (m 5)), m) :=
  C90_get_partial shw write 4 m C90.exRepo C90.exTargets (by simp [C90.exObjs]) C90.reachY

example (shw : O → Mem → J) (write : J → Str) (m : Mem) :
    ∃ a m', expr (iface C90.exEnv shw 5) m (moduleOf C90.exObjs) [b "o", b "id"] = some a ∧
      callA (iface C90.exEnv shw 5) write a [.int 77] m = (.value (.int 77), m') ∧ m' 2 = .int 77 ∧
      ∀ y, y ≠ 2 → m' y = m y :=
  C90_set_partial shw write 2 m C90.exRepo C90.exTargets (by simp [C90.exObjs]) C90.reachId
    (.int (by simp [InRange, int32, EnumKeys.Width.modulus]) (by simp [InRange, int64, EnumKeys.Width.modulus])) []

example (shw : O → Mem → J) (write : J → Str) := C90_call_partial shw write C90.exRepo C90.exTargets (d := b "o")
  (by simp [C90.exObjs]) reachZ (.str (b "hello")) [] 0

private def exReg : Reg := build [.obj (b "a") 0 false, .obj (b "a.b") 1 false, .obj (b "c.d") 2 false]

private theorem exReg_sorted : Sorted strLt exReg := C35.build_sorted _

private theorem id1 {c : UInt8} (h1 : c ≠ dot) (h2 : c ≠ 64) : Ident [c] :=
  ⟨by simp, by simpa using Ne.symm h1, by simpa using h2⟩

example {S : Type} (I : Iface Ent S) (s : S) :
    ∃ e ms, expr I s (initModule exReg) [b "a", b "b"] = some (.wrap false e ms) ∧
      process exReg (b "a.b") = .process e [] :=
  C90_static_partial I s exReg_sorted (d := b "a") (ns := [b "b"]) (id1 (by decide) (by decide))
    (by simp only [List.mem_singleton]; rintro n rfl; exact ⟨id1 (by decide) (by decide), by decide⟩)
    (by
      intro j hj
      simp only [List.length_singleton] at hj
      rcases j with _ | _ | j
      · decide
      · decide
      · omega)

example {S : Type} (I : Iface Ent S) (s : S) : ∃ e, expr I s (initModule exReg) [b "c", b "d"] = none ∧
    process exReg (b "c.d") = .process e [] :=
  ⟨.obj 2 false, C90_fails_unregistered I s exReg_sorted (d := b "c") (ns := [b "d"]) (id1 (by decide) (by decide))
    (by simp only [List.mem_singleton]; rintro n rfl; exact id1 (by decide) (by decide)) (by decide) (by decide)⟩

example (shw : O → Mem → J) (m : Mem) (sp : Bool) (ws : Ms Cmd) (hw : ws (b "z") = none) :
    getAttr (iface { C90.exEnv with target := fun a => if a = 1 then some (.ptr 9) else C90.exEnv.target a } shw 3) m
      (.wrap sp (.node (.obj (.ptr 1))) ws) (b "z") = none :=
  C90_fails_pointers shw 3 m 1 9 rfl (b "z") (by decide) sp ws hw

/-- `o.p.x=v` -/
example {P S : Type} (I : Iface P S) (s : S) (v : Python.PyT) (o p x : P) :
    ∃ a', setPath I s (.wrap false o (upd none' (b "p") (some (.wrap false p (upd none' (b "x")
        (some (.wrap false x none'))))))) [b "p"] (b "x") (some (.py v)) = some a' ∧
      getPath I s a' [b "p", b "x"] = some (.py v) :=
  C90_fails_assign I s v (b "x") [b "p"] _ _ (by
      intro ks ts y e sp cmd ms hg
      cases ks with
      | nil =>
        simp only [List.nil_append, List.cons.injEq] at e
        simp only [getPath, Option.some.injEq, A.wrap.injEq] at hg
        rw [← hg.2.2, ← e.1]
        simp [upd]
      | cons k ks => simp at e)
    rfl ⟨_, _, _, rfl⟩

/-- C90: an object or an array that a call returns is there for what the call gave; it takes arguments as they are: calling
it with some passes all of them to it. -/
theorem C90_returned {P S : Type} (I : Iface P S) (write : J → Str) (a a' : A P) (args : List J) (s s' : S)
    (h : callA I write a args s = (.wrap a', s')) :
    ∃ cmd q r p, I.run cmd q r s = (.res p, s') ∧ (∃ sp ms, a = .wrap sp cmd ms) ∧
      (∀ j js t p' t', I.run p [] (.arr (j :: js)) t = (.res p', t') → (callA I write a' (j :: js) t).2 = t') ∧
      ∀ j js t t', I.run p [] (.arr (j :: js)) t = (.throw, t') → callA I write a' (j :: js) t = (.error, t') := by
  cases a with
  | wrap sp cmd ms =>
    simp only [callA, call] at h
    split at h
    · split at h <;> simp at h
    · split at h
      · rename_i p t he
        simp only [Prod.mk.injEq] at h
        obtain ⟨h, rfl⟩ := h
        refine ⟨cmd, _, _, p, he, ⟨sp, ms, rfl⟩, ?_⟩
        simp only [returnResult] at h
        split at h
        · simp at h
        all_goals first
          | (simp only [Res.wrap.injEq] at h
             subst h
             refine ⟨fun j js t p' t' hr => ?_, fun j js t t' hr => ?_⟩ <;> simp [callA, call, hr])
          | simp at h
      all_goals simp at h
  | _ => simp [callA] at h

/-- A function `false` that returns an array `true`; the array counts what it is given. -/
example : ∃ a', callA (⟨fun _ => false, fun _ _ => [], fun p _ => some (if p then .arr [] else .null),
    fun p _ r n => (.res true, if p then (match r with | .arr l => n + l.length | _ => n) else n)⟩ : Iface Bool Nat)
    (fun _ => []) (.wrap false false fun _ => none) [] 0 = (.wrap a', 0) ∧
    (callA (⟨fun _ => false, fun _ _ => [], fun p _ => some (if p then .arr [] else .null),
    fun p _ r n => (.res true, if p then (match r with | .arr l => n + l.length | _ => n) else n)⟩ : Iface Bool Nat)
    (fun _ => []) a' [.null, .null] 0).2 = 2 :=
  ⟨_, rfl, rfl⟩

end Verif.PyMod
