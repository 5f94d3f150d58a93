import Verif.GraphLemmas
/-
The unpacker follows the packer: the graph built is the image of the original one.
-/
namespace Verif.Graph

/-- Pointer `v` in the new graph corresponds to `p` in the old one: new object `k` is the image of `M[k]`. -/
def Corr (M : List Nat) : Option Nat → Option Nat → Prop
  | none, none => True
  | some k, some a => M[k]? = some a
  | _, _ => False

def CorrL (M : List Nat) : List (Option Nat) → List (Option Nat) → Prop
  | [], [] => True
  | v :: vs, p :: ps => Corr M v p ∧ CorrL M vs ps
  | _, _ => False

def CorrF (M : List Nat) : Fld → Fld → Prop
  | .data n, .data m => n = m
  | .ptr v, .ptr p => Corr M v p
  | .vec vs, .vec ps => CorrL M vs ps
  | _, _ => False

/-- Members from the `j`-th on of new object `i` correspond to the old ones, or are pointers waiting for a restart. -/
def FieldsOK (M : List Nat) (pend : List (Slot × Option Nat)) (i : Nat) : Nat → List Fld → List Fld → Prop
  | _, [], [] => True
  | j, f :: fs, g :: gs => (CorrF M f g ∨ ∃ v p, f = .ptr v ∧ g = .ptr p ∧ (Slot.cell i j, p) ∈ pend) ∧ FieldsOK M pend i (j + 1) fs gs
  | _, _, _ => False

/-- A deferred pointer: the location is a pointer member that should receive the image of the pointer recorded. -/
def Valid (G : Nat → List Fld) (M : List Nat) (x : Slot × Option Nat) : Prop :=
  ∃ i j a, x.1 = .cell i j ∧ M[i]? = some a ∧ (G a)[j]? = some (.ptr x.2)

theorem getElem?_prefix {M M' : List Nat} (h : M <+: M') {k a : Nat} (hk : M[k]? = some a) : M'[k]? = some a := by
  obtain ⟨t, rfl⟩ := h
  obtain ⟨hlt, -⟩ := List.getElem?_eq_some_iff.1 hk
  rw [List.getElem?_append_left hlt, hk]

theorem Corr.mono {M M' : List Nat} (h : M <+: M') : ∀ {v p}, Corr M v p → Corr M' v p
  | none, none, _ => trivial
  | some _, some _, hk => getElem?_prefix h hk
  | none, some _, hk => hk.elim
  | some _, none, hk => hk.elim

theorem CorrL.mono {M M' : List Nat} (h : M <+: M') : ∀ {vs ps}, CorrL M vs ps → CorrL M' vs ps
  | [], [], _ => trivial
  | _ :: _, _ :: _, hk => ⟨hk.1.mono h, CorrL.mono h hk.2⟩
  | [], _ :: _, hk => hk.elim
  | _ :: _, [], hk => hk.elim

theorem CorrF.mono {M M' : List Nat} (h : M <+: M') : ∀ {f g}, CorrF M f g → CorrF M' f g
  | .data _, .data _, hk => hk
  | .ptr _, .ptr _, hk => Corr.mono h hk
  | .vec _, .vec _, hk => CorrL.mono h hk
  | .data _, .ptr _, hk => hk.elim
  | .data _, .vec _, hk => hk.elim
  | .ptr _, .data _, hk => hk.elim
  | .ptr _, .vec _, hk => hk.elim
  | .vec _, .data _, hk => hk.elim
  | .vec _, .ptr _, hk => hk.elim

theorem FieldsOK.mono {M M' : List Nat} (h : M <+: M') {pend pend' : List (Slot × Option Nat)} (hp : ∀ x ∈ pend, x ∈ pend') {i : Nat} :
    ∀ {j fs gs}, FieldsOK M pend i j fs gs → FieldsOK M' pend' i j fs gs
  | _, [], [], _ => trivial
  | _, _ :: _, _ :: _, hk => by
    refine ⟨?_, FieldsOK.mono h hp hk.2⟩
    rcases hk.1 with hk | ⟨v, p, e1, e2, hm⟩
    · exact .inl (hk.mono h)
    · exact .inr ⟨v, p, e1, e2, hp _ hm⟩
  | _, [], _ :: _, hk => hk.elim
  | _, _ :: _, [], hk => hk.elim

theorem Valid.mono {G} {M M' : List Nat} (h : M <+: M') {x} (hv : Valid G M x) : Valid G M' x := by
  obtain ⟨i, j, a, h1, h2, h3⟩ := hv
  exact ⟨i, j, a, h1, getElem?_prefix h h2, h3⟩

/-- Packer and unpacker states in lockstep. -/
structure Match (st : PSt) (u : USt) (pend : List (Slot × Option Nat)) : Prop where
  heap : u.heap.length = st.map.length
  map : ∀ id, u.map.lookup id = if 1 ≤ id ∧ id ≤ st.map.length then some (id - 1) else none
  rp : st.restart = pend.map Prod.snd
  ru : u.restart = pend.map Prod.fst

/-- What reading the tokens written between `st` and `st'` does. -/
structure Post (G : Nat → List Fld) (rmax : Nat) (st st' : PSt) (u u' : USt) (pend new : List (Slot × Option Nat)) (rest : List Nat) : Prop where
  m : Match st' u' (new ++ pend)
  inp : u'.inp = rest
  len : u.heap.length ≤ u'.heap.length
  frame : ∀ i, i < u.heap.length → u'.heap[i]? = u.heap[i]?
  nodes : ∀ i, u.heap.length ≤ i → i < u'.heap.length → ∃ a fs, st'.map[i]? = some a ∧ u'.heap[i]? = some fs ∧
    FieldsOK st'.map new i 0 fs (G a)
  pre : st.map <+: st'.map
  root : u'.rootv = u.rootv
  unl : rmax = 0 → new = []

theorem Post.trans {G rmax s1 s2 s3 u1 u2 u3 pend n1 n2 r1 r2} (h : Post G rmax s1 s2 u1 u2 pend n1 r1)
    (k : Post G rmax s2 s3 u2 u3 (n1 ++ pend) n2 r2) : Post G rmax s1 s3 u1 u3 pend (n2 ++ n1) r2 := by
  refine ⟨by rw [List.append_assoc]; exact k.m, k.inp, Nat.le_trans h.len k.len, ?_, ?_, h.pre.trans k.pre, k.root.trans h.root, ?_⟩
  · intro i hi
    rw [k.frame i (Nat.lt_of_lt_of_le hi h.len), h.frame i hi]
  · intro i h1 h2
    by_cases hi : i < u2.heap.length
    · obtain ⟨a, fs, e1, e2, e3⟩ := h.nodes i h1 hi
      exact ⟨a, fs, getElem?_prefix k.pre e1, by rw [k.frame i hi, e2], e3.mono k.pre (by simp; grind)⟩
    · obtain ⟨a, fs, e1, e2, e3⟩ := k.nodes i (by omega) h2
      exact ⟨a, fs, e1, e2, e3.mono List.prefix_rfl (by simp; grind)⟩
  · intro h0; rw [h.unl h0, k.unl h0]; rfl

/-- The unpacker of one pointer follows the packer. -/
def Follows (G : Nat → List Fld) (rmax : Nat) (f : Option Nat → PSt → Option PSt)
    (g : Slot → USt → Out (Option (Option Nat) × USt)) (R : Nat → Prop) : Prop :=
  ∀ p st st', okPtr R p → f p st = some st' → st.map <+: st'.map ∧ ∃ toks, st'.out = st.out ++ toks ∧
    ∀ u slot pend rest, Match st u pend → u.inp = toks ++ rest → ∃ v u' new, g slot u = .ok (v, u') ∧
      Post G rmax st st' u u' pend new rest ∧ (∀ x ∈ new, x = (slot, p) ∨ Valid G st'.map x) ∧
      ((v = none ∧ rmax ≠ 0 ∧ (slot, p) ∈ new) ∨ ∃ w, v = some w ∧ Corr st'.map w p ∧ ∀ x ∈ new, Valid G st'.map x)

theorem match_emit {st : PSt} {u : USt} {pend} (n : Nat) (inp : List Nat) (h : Match st u pend) : Match (st.emit n) { u with inp := inp } pend :=
  ⟨h.heap, h.map, h.rp, h.ru⟩

theorem post_emit {G rmax} {st : PSt} {u : USt} {pend} (n : Nat) (inp : List Nat) (h : Match st u pend) :
    Post G rmax st (st.emit n) u { u with inp := inp } pend [] inp :=
  ⟨match_emit n inp h, rfl, Nat.le_refl _, fun _ _ => rfl, fun i h1 h2 => by simp at h2; omega, List.prefix_rfl, rfl, fun _ => rfl⟩

theorem post_refl {G rmax} {st : PSt} {u : USt} {pend rest} (hm : Match st u pend) (hi : u.inp = rest) :
    Post G rmax st st u u pend [] rest :=
  ⟨hm, hi, Nat.le_refl _, fun _ _ => rfl, fun i h1 h2 => by omega, List.prefix_rfl, rfl, fun _ => rfl⟩

theorem follows_vec {G R} {f g} (junk : Option Nat) (hf : Follows G 0 f g R) : ∀ (ps : List (Option Nat)) (st st' : PSt),
    (∀ p ∈ ps, okPtr R p) → packVec f ps st = some st' → st.map <+: st'.map ∧ ∃ toks, st'.out = st.out ++ toks ∧
    ∀ u pend rest, Match st u pend → u.inp = toks ++ rest → ∃ vs u', unpackVec junk g ps.length u = .ok (vs, u') ∧
      Post G 0 st st' u u' pend [] rest ∧ CorrL st'.map vs ps
  | [], st, st', _, h => by
    simp only [packVec, Option.some.injEq] at h
    subst h
    exact ⟨List.prefix_rfl, [], by simp, fun u pend rest hm hi => ⟨[], u, rfl, post_refl hm hi, trivial⟩⟩
  | p :: ps, st, st', hp, h => by
    simp only [packVec, Option.bind_eq_some_iff] at h
    obtain ⟨s1, e1, e2⟩ := h
    obtain ⟨p1, t1, o1, k1⟩ := hf p st s1 (hp p (by simp)) e1
    obtain ⟨p2, t2, o2, k2⟩ := follows_vec junk hf ps s1 st' (fun q hq => hp q (by simp [hq])) e2
    refine ⟨p1.trans p2, t1 ++ t2, by rw [o2, o1, List.append_assoc], fun u pend rest hm hi => ?_⟩
    rw [List.append_assoc] at hi
    obtain ⟨v, u1, new, q1, q2, -, q4⟩ := k1 u .loc pend _ hm hi
    have hn := q2.unl rfl
    subst hn
    rcases q4 with ⟨-, h0, -⟩ | ⟨w, hw, hc, -⟩
    · exact absurd rfl h0
    · obtain ⟨vs, u2, r1, r2, r3⟩ := k2 u1 pend rest q2.m q2.inp
      refine ⟨w :: vs, u2, ?_, q2.trans r2, hc.mono r2.pre, r3⟩
      simp [unpackVec, q1, Out.bind, r1, hw]

theorem follows_fields {G R} {rmax : Nat} {f g} (junk : Option Nat) (hf : Follows G rmax f g R) (hv : rmax = 0 ∨ ∀ a, R a → ∀ ps, Fld.vec ps ∉ G a)
    (a i : Nat) (hRa : R a) : ∀ (gs gs0 : List Fld) (st st' : PSt), G a = gs0 ++ gs → (∀ p ∈ ptrsOf gs, okPtr R p) → st.map[i]? = some a →
    packFields f gs st = some st' → st.map <+: st'.map ∧ ∃ toks, st'.out = st.out ++ toks ∧
    ∀ u pend rest, Match st u pend → u.inp = toks ++ rest → ∃ fs u' new,
      unpackFields junk g i gs0.length (gs.map Fld.kind) u = .ok (fs, u') ∧
      Post G rmax st st' u u' pend new rest ∧ FieldsOK st'.map new i gs0.length fs gs ∧ ∀ x ∈ new, Valid G st'.map x
  | [], gs0, st, st', _, _, _, h => by
    simp only [packFields, Option.some.injEq] at h
    subst h
    exact ⟨List.prefix_rfl, [], by simp, fun u pend rest hm hi => ⟨[], u, [], rfl, post_refl hm hi, trivial, by simp⟩⟩
  | .data n :: gs, gs0, st, st', hG, hp, hi0, h => by
    simp only [packFields] at h
    obtain ⟨p2, t2, o2, k2⟩ := follows_fields junk hf hv a i hRa gs (gs0 ++ [.data n]) (st.emit n) st' (by simp [hG])
      (fun q hq => hp q (by simpa [ptrsOf, Fld.ptrs] using hq)) hi0 h
    refine ⟨p2, n :: t2, by rw [o2]; simp [PSt.emit], fun u pend rest hm hi => ?_⟩
    obtain ⟨fs, u2, new, r1, r2, r3, r4⟩ := k2 { u with inp := t2 ++ rest } pend rest (match_emit n _ hm) rfl
    rw [List.length_append, List.length_singleton] at r1 r3
    refine ⟨.data n :: fs, u2, new, ?_, ?_, ⟨.inl rfl, r3⟩, r4⟩
    · simp only [List.map_cons, Fld.kind, unpackFields, USt.read, hi, List.cons_append, Out.bind, r1]
    · have := (post_emit (G := G) (rmax := rmax) n (t2 ++ rest) hm).trans r2; simpa using this
  | .ptr p :: gs, gs0, st, st', hG, hp, hi0, h => by
    simp only [packFields, Option.bind_eq_some_iff] at h
    obtain ⟨s1, e1, e2⟩ := h
    obtain ⟨p1, t1, o1, k1⟩ := hf p st s1 (hp p (by simp [ptrsOf, Fld.ptrs])) e1
    have hm0 : s1.map[i]? = some a := getElem?_prefix p1 hi0
    obtain ⟨p2, t2, o2, k2⟩ := follows_fields junk hf hv a i hRa gs (gs0 ++ [.ptr p]) s1 st' (by simp [hG])
      (fun q hq => hp q (by simp only [ptrsOf, List.flatMap_cons, List.mem_append]; exact .inr hq)) hm0 e2
    refine ⟨p1.trans p2, t1 ++ t2, by rw [o2, o1, List.append_assoc], fun u pend rest hm hi => ?_⟩
    rw [List.append_assoc] at hi
    obtain ⟨v, u1, n1, q1, q2, q3, q4⟩ := k1 u (.cell i gs0.length) pend _ hm hi
    obtain ⟨fs, u2, n2, r1, r2, r3, r4⟩ := k2 u1 (n1 ++ pend) rest q2.m q2.inp
    rw [List.length_append, List.length_singleton] at r1 r3
    have hval : Valid G s1.map (.cell i gs0.length, p) := ⟨i, gs0.length, a, rfl, hm0, by simp [hG]⟩
    have hall : ∀ x ∈ n1, Valid G s1.map x := by
      intro x hx; rcases q3 x hx with rfl | h; exact hval; exact h
    refine ⟨.ptr (v.getD junk) :: fs, u2, n2 ++ n1, ?_, q2.trans r2, ⟨?_, ?_⟩, ?_⟩
    · simp only [List.map_cons, Fld.kind, unpackFields, q1, Out.bind, r1]
    · rcases q4 with ⟨hv0, -, hin⟩ | ⟨w, hw, hc, -⟩
      · exact .inr ⟨_, p, rfl, rfl, by simp [hin]⟩
      · left; subst hw; exact hc.mono r2.pre
    · exact r3.mono List.prefix_rfl (by simp; grind)
    · intro x hx
      rw [List.mem_append] at hx
      rcases hx with hx | hx
      · exact r4 x hx
      · exact (hall x hx).mono r2.pre
  | .vec ps :: gs, gs0, st, st', hG, hp, hi0, h => by
    have h0 : rmax = 0 := by
      rcases hv with h | h
      · exact h
      · exact absurd (show Fld.vec ps ∈ G a by simp [hG]) (h a hRa ps)
    subst h0
    simp only [packFields, Option.bind_eq_some_iff] at h
    obtain ⟨s1, e1, e2⟩ := h
    obtain ⟨p1, t1, o1, k1⟩ := follows_vec junk hf ps (st.emit ps.length) s1 (fun q hq => hp q (by
      simp only [ptrsOf, List.flatMap_cons, List.mem_append]; exact .inl hq)) e1
    have hm0 : s1.map[i]? = some a := getElem?_prefix p1 hi0
    obtain ⟨p2, t2, o2, k2⟩ := follows_fields junk hf hv a i hRa gs (gs0 ++ [.vec ps]) s1 st' (by simp [hG])
      (fun q hq => hp q (by simp only [ptrsOf, List.flatMap_cons, List.mem_append]; exact .inr hq)) hm0 e2
    refine ⟨p1.trans p2, ps.length :: (t1 ++ t2), by rw [o2, o1]; simp [PSt.emit], fun u pend rest hm hi => ?_⟩
    have hi : u.inp = ps.length :: (t1 ++ (t2 ++ rest)) := by rw [hi]; simp
    obtain ⟨vs, u1, q1, q2, q3⟩ := k1 { u with inp := t1 ++ (t2 ++ rest) } pend _ (match_emit _ _ hm) rfl
    obtain ⟨fs, u2, n2, r1, r2, r3, r4⟩ := k2 u1 pend rest q2.m q2.inp
    rw [List.length_append, List.length_singleton] at r1 r3
    refine ⟨.vec vs :: fs, u2, n2, ?_, ?_, ⟨.inl (CorrL.mono r2.pre q3), r3⟩, r4⟩
    · simp only [List.map_cons, Fld.kind, unpackFields, USt.read, hi, Out.bind, q1, r1]
    · have := ((post_emit (G := G) (rmax := 0) ps.length (t1 ++ (t2 ++ rest)) hm).trans q2).trans r2; simpa using this

theorem follows_ptr {G N R} (hc : Closed G N R) (sh : List Kind) (hsh : ∀ a, R a → (G a).map Fld.kind = sh) (junk : Option Nat) (rmax : Nat)
    (hv : rmax = 0 ∨ ∀ a, R a → ∀ ps, Fld.vec ps ∉ G a) : ∀ fuel nd lvl,
    Follows G rmax (packPtr G rmax fuel nd lvl) (unpackPtr sh junk rmax fuel lvl) R
  | 0, _, _ => by intro p st st' _ h; simp [packPtr] at h
  | fuel + 1, nd, lvl => by
    intro p st st' hp h
    unfold packPtr at h
    by_cases hl : lvl + 1 = rmax
    · simp only [hl, if_true, Option.some.injEq] at h
      subst h
      refine ⟨List.prefix_rfl, [], by simp, fun u slot pend rest hm hi => ?_⟩
      refine ⟨none, { u with restart := slot :: u.restart }, [(slot, p)], ?_, ?_, by simp, .inl ⟨rfl, by omega, by simp⟩⟩
      · simp [unpackPtr, hl]
      · exact ⟨⟨hm.heap, hm.map, by simp [hm.rp], by simp [hm.ru]⟩, hi, Nat.le_refl _, fun _ _ => rfl,
          fun i h1 h2 => by simp at h2; omega, List.prefix_rfl, rfl, fun h0 => by omega⟩
    · simp only [hl, if_false] at h
      have md : ∀ {u pend}, Match st u pend → Match { st with deep := max st.deep nd } u pend := fun hm => ⟨hm.heap, hm.map, hm.rp, hm.ru⟩
      cases p with
      | none =>
        simp only [Option.some.injEq] at h
        subst h
        refine ⟨List.prefix_rfl, [0], rfl, fun u slot pend rest hm hi => ?_⟩
        refine ⟨some none, { u with inp := rest }, [], ?_, ?_, by simp, .inr ⟨none, rfl, trivial, by simp⟩⟩
        · simp [unpackPtr, hl, USt.read, hi, Out.bind]
        · have z := post_emit (G := G) (rmax := rmax) (st := { st with deep := max st.deep nd }) 0 rest (md hm)
          exact ⟨z.m, z.inp, z.len, z.frame, z.nodes, z.pre, z.root, z.unl⟩
      | some a =>
        simp only at h
        cases hx : st.map.idxOf? a with
        | some i =>
          rw [hx] at h
          simp only [Option.some.injEq] at h
          subst h
          have hmi : st.map[i]? = some a := by
            rw [List.idxOf?_eq_some_iff] at hx
            obtain ⟨e1, e2, -⟩ := hx
            rw [List.getElem?_eq_getElem e1, e2]
          have hlt : i < st.map.length := (List.getElem?_eq_some_iff.1 hmi).1
          refine ⟨List.prefix_rfl, [i + 1], rfl, fun u slot pend rest hm hi => ?_⟩
          refine ⟨some (some i), { u with inp := rest }, [], ?_, ?_, by simp, .inr ⟨some i, rfl, hmi, by simp⟩⟩
          · have hlk : u.map.lookup (i + 1) = some i := by rw [hm.map, if_pos (by omega)]; simp
            simp [unpackPtr, hl, USt.read, hi, Out.bind, hlk]
          · have z := post_emit (G := G) (rmax := rmax) (st := { st with deep := max st.deep nd }) (i + 1) rest (md hm)
            exact ⟨z.m, z.inp, z.len, z.frame, z.nodes, z.pre, z.root, z.unl⟩
        | none =>
          rw [hx] at h
          simp only at h
          have ha : R a := hp a rfl
          obtain ⟨p1, t1, o1, k1⟩ := follows_fields junk (follows_ptr hc sh hsh junk rmax hv fuel (nd + 1) (lvl + 1)) hv a st.map.length ha
            (G a) [] _ st' rfl (fun q hq b hb => hc.step a ha b (hb ▸ hq)) (by simp [PSt.emit]) h
          have p0 : st.map <+: st'.map := (List.prefix_append st.map [a]).trans p1
          refine ⟨p0, (st.map.length + 1) :: t1, by rw [o1]; simp [PSt.emit], fun u slot pend rest hm hi => ?_⟩
          have hlk : u.map.lookup (st.map.length + 1) = none := by rw [hm.map, if_neg (by omega)]
          obtain ⟨fs, u1, new, r1, r2, r3, r4⟩ := k1
            { u with inp := t1 ++ rest, heap := u.heap ++ [[]], map := (st.map.length + 1, u.heap.length) :: u.map } pend rest (by
              refine ⟨by simp [PSt.emit, hm.heap], ?_, hm.rp, hm.ru⟩
              intro id
              simp only [PSt.emit, List.length_append, List.length_singleton, List.lookup_cons]
              by_cases hid : id = st.map.length + 1
              · subst hid; simp [hm.heap]
              · have : (id == st.map.length + 1) = false := by simpa using hid
                simp only [this]
                rw [hm.map]
                by_cases h1 : 1 ≤ id ∧ id ≤ st.map.length
                · rw [if_pos h1, if_pos (by omega)]
                · rw [if_neg h1, if_neg (by omega)]) rfl
          have hlen : st.map.length + 1 ≤ u1.heap.length := by have := r2.len; simp at this; rw [← hm.heap]; exact this
          have hma : st'.map[st.map.length]? = some a := getElem?_prefix p1 (by simp [PSt.emit])
          refine ⟨some (some u.heap.length), { u1 with heap := u1.heap.set u.heap.length fs }, new, ?_, ?_, fun x hx => .inr (r4 x hx),
            .inr ⟨_, rfl, ?_, r4⟩⟩
          · rw [hsh a ha] at r1
            rw [← hm.heap] at r1 hlk
            simp only [List.length_nil] at r1
            simp [unpackPtr, hl, USt.read, hi, Out.bind, ← hm.heap, hlk, r1]
          · refine ⟨⟨by simpa using r2.m.heap, r2.m.map, r2.m.rp, r2.m.ru⟩, r2.inp, ?_, ?_, ?_, p0, r2.root, r2.unl⟩
            · simp; rw [hm.heap]; omega
            · intro i hi'
              have hf := r2.frame i (by simp; omega)
              rw [List.getElem?_set_ne (by omega), hf]
              rw [List.getElem?_append_left hi']
            · intro i h1 h2
              simp only [List.length_set] at h2
              by_cases he : i = u.heap.length
              · subst he
                refine ⟨a, fs, by rw [hm.heap]; exact hma, by rw [List.getElem?_set_self h2], ?_⟩
                rw [hm.heap]; exact r3
              · obtain ⟨b, gs, e1, e2, e3⟩ := r2.nodes i (by simp; omega) h2
                exact ⟨b, gs, e1, by rw [List.getElem?_set_ne (by omega)]; exact e2, e3⟩
          · show st'.map[u.heap.length]? = some a
            rw [hm.heap]; exact hma

/-- The graph built so far is the image of the original up to the deferred pointers. -/
structure GOK (G : Nat → List Fld) (rp : Option Nat) (M : List Nat) (pend : List (Slot × Option Nat)) (u : USt) : Prop where
  len : u.heap.length = M.length
  nodes : ∀ i a, M[i]? = some a → ∃ fs, u.heap[i]? = some fs ∧ FieldsOK M pend i 0 fs (G a)
  root : Corr M u.rootv rp ∨ (Slot.root, rp) ∈ pend
  valid : ∀ x ∈ pend, x = (Slot.root, rp) ∨ Valid G M x

theorem GOK.read {G rp M pend u} (h : GOK G rp M pend u) (inp : List Nat) : GOK G rp M pend { u with inp := inp } :=
  ⟨h.len, h.nodes, h.root, h.valid⟩

theorem GOK.post {G rp rmax st st' u u' pend0 pend new rest} (h : GOK G rp st.map pend0 u) (hs : ∀ x ∈ pend, x ∈ pend0)
    (k : Post G rmax st st' u u' pend new rest) (hn : ∀ x ∈ new, x = (Slot.root, rp) ∨ Valid G st'.map x) :
    GOK G rp st'.map (new ++ pend0) u' := by
  refine ⟨k.m.heap, ?_, ?_, ?_⟩
  · intro i a hi
    by_cases hlt : i < u.heap.length
    · have hM : st.map[i]? = some a := by
        obtain ⟨t, ht⟩ := k.pre
        rw [← ht, List.getElem?_append_left (by rw [← h.len]; exact hlt)] at hi
        exact hi
      obtain ⟨fs, e1, e2⟩ := h.nodes i a hM
      exact ⟨fs, by rw [k.frame i hlt, e1], e2.mono k.pre (by simp; grind)⟩
    · obtain ⟨b, fs, e1, e2, e3⟩ := k.nodes i (by omega) (by
        rw [k.m.heap]; exact (List.getElem?_eq_some_iff.1 hi).1)
      rw [hi] at e1
      cases e1
      exact ⟨fs, e2, e3.mono List.prefix_rfl (by simp; grind)⟩
  · rw [k.root]
    rcases h.root with h | h
    · exact .inl (h.mono k.pre)
    · exact .inr (by simp [h])
  · intro x hx
    rw [List.mem_append] at hx
    rcases hx with hx | hx
    · exact hn x hx
    · rcases h.valid x hx with h | h
      · exact .inl h
      · exact .inr (h.mono k.pre)

theorem FieldsOK.assign {M : List Nat} {pend pend' : List (Slot × Option Nat)} {i : Nat} {v p : Option Nat} (hc : Corr M v p) :
    ∀ (j : Nat) (fs gs : List Fld) (t : Nat), gs[t]? = some (.ptr p) → (∀ x ∈ pend, x = (Slot.cell i (j + t), p) ∨ x ∈ pend') →
    FieldsOK M pend i j fs gs → FieldsOK M pend' i j (fs.set t (.ptr v)) gs
  | _, [], [], _, h, _, _ => by simp at h
  | _, [], _ :: _, _, _, _, hk => hk.elim
  | _, _ :: _, [], _, _, _, hk => hk.elim
  | j, f :: fs, g :: gs, 0, h, hs, hk => by
    simp only [List.getElem?_cons_zero, Option.some.injEq] at h
    subst h
    refine ⟨.inl hc, ?_⟩
    -- the rest does not involve member j
    have aux : ∀ (l : Nat) (fs gs : List Fld), j < l → FieldsOK M pend i l fs gs → FieldsOK M pend' i l fs gs := by
      intro l fs
      induction fs generalizing l with
      | nil => intro gs _ h; cases gs; trivial; exact h.elim
      | cons f fs ih =>
        intro gs hl h
        cases gs with
        | nil => exact h.elim
        | cons g gs =>
          refine ⟨?_, ih (l + 1) gs (by omega) h.2⟩
          rcases h.1 with h | ⟨v, p', e1, e2, hm⟩
          · exact .inl h
          · rcases hs _ hm with h | h
            · simp at h; omega
            · exact .inr ⟨v, p', e1, e2, h⟩
    exact aux (j + 1) fs gs (by omega) hk.2
  | j, f :: fs, g :: gs, t + 1, h, hs, hk => by
    refine ⟨?_, FieldsOK.assign hc (j + 1) fs gs t (by simpa using h) (by
      intro x hx; have := hs x hx; rw [show j + (t + 1) = j + 1 + t by omega] at this; exact this) hk.2⟩
    rcases hk.1 with h | ⟨v, p', e1, e2, hm⟩
    · exact .inl h
    · rcases hs _ hm with h | h
      · simp at h
      · exact .inr ⟨v, p', e1, e2, h⟩

theorem FieldsOK.other {M : List Nat} {pend pend' : List (Slot × Option Nat)} {i : Nat} :
    ∀ {j : Nat} {fs gs : List Fld}, (∀ j p, (Slot.cell i j, p) ∈ pend → (Slot.cell i j, p) ∈ pend') →
    FieldsOK M pend i j fs gs → FieldsOK M pend' i j fs gs
  | _, [], [], _, _ => trivial
  | _, [], _ :: _, _, hk => hk.elim
  | _, _ :: _, [], _, hk => hk.elim
  | j, f :: fs, g :: gs, hs, hk => by
    refine ⟨?_, FieldsOK.other hs hk.2⟩
    rcases hk.1 with h | ⟨v, p', e1, e2, hm⟩
    · exact .inl h
    · exact .inr ⟨v, p', e1, e2, hs _ _ hm⟩

/-- Storing the value of a deferred pointer. -/
theorem GOK.assign {G rp M pend pend' u s p v} (h : GOK G rp M pend u) (hs : (s, p) ∈ pend) (hc : Corr M v p)
    (h1 : ∀ x ∈ pend, x = (s, p) ∨ x ∈ pend') (h2 : ∀ x ∈ pend', x ∈ pend) : GOK G rp M pend' (u.assign s v) := by
  rcases h.valid _ hs with hv | ⟨i, j, a, e1, e2, e3⟩
  · simp only [Prod.mk.injEq] at hv
    obtain ⟨rfl, rfl⟩ := hv
    refine ⟨h.len, ?_, .inl hc, fun x hx => h.valid x (h2 x hx)⟩
    intro i a hi
    obtain ⟨fs, k1, k2⟩ := h.nodes i a hi
    refine ⟨fs, k1, k2.other ?_⟩
    intro j q hq
    rcases h1 _ hq with h | h
    · simp at h
    · exact h
  · simp only at e1 e3
    subst e1
    refine ⟨by simp [USt.assign, h.len], ?_, ?_, fun x hx => h.valid x (h2 x hx)⟩
    · intro i' a' hi'
      obtain ⟨fs, k1, k2⟩ := h.nodes i' a' hi'
      by_cases he : i' = i
      · subst he
        rw [e2] at hi'
        cases hi'
        refine ⟨fs.set j (.ptr v), by simp [USt.assign, List.getElem?_modify, k1], ?_⟩
        exact FieldsOK.assign hc 0 fs (G a) j e3 (by simpa using h1) k2
      · refine ⟨fs, ?_, k2.other ?_⟩
        · simp [USt.assign, List.getElem?_modify, k1, Ne.symm he]
        · intro j' q hq
          rcases h1 _ hq with h | h
          · simp at h; exact absurd h.1.1 he
          · exact h
    · rcases h.root with h | h
      · exact .inl h
      · rcases h1 _ h with h | h
        · simp at h
        · exact .inr h

theorem assign_inp (u : USt) (s v) : (u.assign s v).inp = u.inp ∧ (u.assign s v).restart = u.restart ∧ (u.assign s v).map = u.map := by
  cases s <;> exact ⟨rfl, rfl, rfl⟩

theorem unpackLoop_nil (f k) (st : USt) (h : st.restart = []) : unpackLoop f k st = .ok st := by
  unfold unpackLoop; rw [h]

theorem remw_le : ∀ M L : List Nat, remw (fun _ => 1) L M ≤ L.length := by
  intro M L; induction L with
  | nil => simp [remw]
  | cons x L ih => rw [remw_cons]; simp only [List.length_cons]; split <;> omega

/-- A whole session: the packer ends, and the unpacker rebuilds the graph from what was written. -/
theorem session {G N R} (hc : Closed G N R) (sh : List Kind) (hsh : ∀ a, R a → (G a).map Fld.kind = sh) (junk : Option Nat) (rmax : Nat)
    (hv : rmax = 0 ∨ ∀ a, R a → ∀ ps, Fld.vec ps ∉ G a) (hr : rmax ≠ 1) (rp : Option Nat) (F : Nat) (hF : N < F) :
    ∀ (k nd : Nat) (p : Option Nat) (st : PSt), okPtr R p → PInv R st → weight G N st < k →
    ∃ st' toks M', packRoot G rmax F k nd p st = some st' ∧ st'.restart = [] ∧ st'.map = [] ∧ st'.out = st.out ++ toks ∧
      M'.Nodup ∧ (∀ a ∈ M', R a) ∧ st.map <+: M' ∧
      ∀ u s pend rest, Match st u pend → u.inp = toks ++ rest → GOK G rp st.map ((s, p) :: pend) u →
        ∃ u', unpackRoot sh junk F k s u = .ok u' ∧ u'.inp = rest ∧ GOK G rp M' [] u' ∧ u'.restart = [] ∧ u'.map = []
  | 0, _, _, _, _, _, h => by omega
  | k + 1, nd, p, st, hp, hi, hk => by
    obtain ⟨s1, e1, -, q1⟩ := pack_ptr_ok hc rmax F nd 0 p (st.emit rmax) hp (pstep_emit (G := G) (N := N) hi rmax).inv
      (by have := remw_le (st.emit rmax).map (List.range N); rw [List.length_range] at this; omega)
    have q1 := q1 (by omega)
    have hw : weight G N s1 ≤ weight G N st := by have := q1.pot; simpa [weight, PSt.emit] using this
    obtain ⟨p1, t1, o1, k1⟩ := follows_ptr hc sh hsh junk rmax hv F nd 0 p (st.emit rmax) s1 hp e1
    -- the first pointer of the session is never deferred
    have kk : ∀ u s pend rest, Match st u pend → u.inp = rmax :: (t1 ++ rest) → GOK G rp st.map ((s, p) :: pend) u →
        ∃ w u1 new, unpackPtr sh junk rmax F 0 s { u with inp := t1 ++ rest } = .ok (some w, u1) ∧ u1.inp = rest ∧
          Match s1 (u1.assign s w) (new ++ pend) ∧ GOK G rp s1.map (new ++ pend) (u1.assign s w) := by
      intro u s pend rest hm hin hg
      obtain ⟨v, u1, new, a1, a2, a3, a4⟩ := k1 { u with inp := t1 ++ rest } s pend rest (match_emit _ _ hm) rfl
      have a5 : ∃ w, v = some w ∧ Corr s1.map w p ∧ ∀ x ∈ new, Valid G s1.map x := by
        rcases a4 with ⟨rfl, -, -⟩ | h
        · exfalso
          obtain ⟨F', rfl⟩ : ∃ F', F = F' + 1 := ⟨F - 1, by omega⟩
          have hne : ¬ (0 + 1 = rmax) := by omega
          unfold unpackPtr at a1
          rw [if_neg hne] at a1
          unfold USt.read at a1
          generalize ({ u with inp := t1 ++ rest } : USt).inp = I at a1
          cases I with
          | nil => simp [Out.bind] at a1
          | cons id I =>
            simp only [Out.bind] at a1
            by_cases hid : id = 0
            · simp [hid] at a1
            · simp only [hid, if_false] at a1
              split at a1
              · simp at a1
              · split at a1 <;> simp at a1
        · exact h
      obtain ⟨w, rfl, hcw, hnv⟩ := a5
      refine ⟨w, u1, new, a1, a2.inp, ?_, ?_⟩
      · obtain ⟨b1, b2, b3⟩ := assign_inp u1 s w
        refine ⟨?_, by rw [b3]; exact a2.m.map, a2.m.rp, by rw [b2]; exact a2.m.ru⟩
        rw [← a2.m.heap]
        cases s <;> simp [USt.assign]
      · have g1 := GOK.post (hg.read (t1 ++ rest)) (pend := pend) (by simp; grind) ⟨a2.m, a2.inp, a2.len, a2.frame, a2.nodes, a2.pre, a2.root, a2.unl⟩
          (fun x hx => .inr (hnv x hx))
        exact g1.assign (s := s) (p := p) (pend' := new ++ pend) (by simp) hcw (by simp; grind) (by simp; grind)
    cases hs : s1.restart with
    | nil =>
      refine ⟨{ s1 with map := [] }, rmax :: t1, s1.map, ?_, hs, rfl, by simp [o1, PSt.emit], q1.inv.nodup, q1.inv.inR, p1, ?_⟩
      · unfold packRoot; rw [e1]; simp only [Option.bind_some]; rw [packLoop_nil _ _ _ hs]; rfl
      · intro u s pend rest hm hin hg
        obtain ⟨w, u1, new, a1, a2, a3, a4⟩ := kk u s pend rest hm hin hg
        have hnil : new ++ pend = [] := by have := a3.rp; rw [hs] at this; simpa using this.symm
        have hr' : (u1.assign s w).restart = [] := by rw [a3.ru, hnil]; rfl
        rw [hnil] at a4
        refine ⟨{ u1.assign s w with map := [] }, ?_, ?_, ⟨a4.len, a4.nodes, a4.root, a4.valid⟩, hr', rfl⟩
        · unfold unpackRoot
          simp only [USt.read, hin, List.cons_append, Out.bind]
          rw [a1]
          simp only
          rw [unpackLoop_nil _ _ _ hr']
        · show (u1.assign s w).inp = rest
          rw [(assign_inp u1 s w).1, a2]
    | cons r rs =>
      have hpos : 0 < k := by
        have : weight G N s1 ≥ 1 := by simp [weight, hs]; omega
        omega
      obtain ⟨k', rfl⟩ : ∃ k', k = k' + 1 := ⟨k - 1, by omega⟩
      have i2 : PInv R { s1 with restart := rs } := ⟨q1.inv.nodup, q1.inv.inR, fun q hq => q1.inv.pend q (by simp [hs, hq])⟩
      have hrr : okPtr R r := q1.inv.pend r (by simp [hs])
      obtain ⟨s2, t2, M', e2, r2, m2, o2, n2, R2, pre2, k2⟩ := session hc sh hsh junk rmax hv hr rp F hF (k' + 1) (nd + 1) r
        { s1 with restart := rs } hrr i2 (by
          have : weight G N s1 = weight G N { s1 with restart := rs } + 1 := by simp [weight, hs]; omega
          omega)
      refine ⟨{ s2 with map := [] }, rmax :: (t1 ++ t2), M', ?_, r2, rfl, by simp [o1, o2, PSt.emit], n2, R2, p1.trans pre2, ?_⟩
      · unfold packRoot; rw [e1]; simp only [Option.bind_some]
        unfold packLoop; rw [hs]; simp only [e2, Option.bind_some]
        rw [packLoop_nil _ _ _ r2]; rfl
      · intro u s pend rest hm hin hg
        obtain ⟨w, u1, new, a1, a2, a3, a4⟩ := kk u s pend (t2 ++ rest) hm (by rw [hin]; simp) hg
        cases hnp : new ++ pend with
        | nil => have := a3.rp; rw [hs, hnp] at this; simp at this
        | cons x xs =>
          obtain ⟨sl, q⟩ := x
          rw [hnp] at a3 a4
          have h1 := a3.rp
          rw [hs] at h1
          simp only [List.map_cons, List.cons.injEq] at h1
          obtain ⟨rfl, rfl⟩ := h1
          have h2 := a3.ru
          simp only [List.map_cons] at h2
          obtain ⟨u2, b1, b2, b3, b4, b5⟩ := k2 { u1.assign s w with restart := xs.map Prod.fst } sl xs rest
            ⟨a3.heap, a3.map, rfl, rfl⟩ (by show (u1.assign s w).inp = _; rw [(assign_inp u1 s w).1, a2])
            ⟨a4.len, a4.nodes, a4.root, a4.valid⟩
          have hnl : sl ≠ .loc := by
            rcases a4.valid _ (List.mem_cons_self) with h | ⟨i, j, a, h, -⟩
            · intro e; simp [e] at h
            · intro e; simp [e] at h
          refine ⟨{ u2 with map := [] }, ?_, b2, ⟨b3.len, b3.nodes, b3.root, b3.valid⟩, b4, rfl⟩
          unfold unpackRoot
          simp only [USt.read, hin, List.cons_append, List.append_assoc, Out.bind]
          rw [a1]
          simp only
          unfold unpackLoop
          rw [h2]
          simp only [hnl, if_false, b1, Out.bind]
          rw [unpackLoop_nil _ _ _ b4]

end Verif.Graph
