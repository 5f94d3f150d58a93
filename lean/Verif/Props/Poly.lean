import Verif.Poly
import Verif.Props.XmlWrite
/-
C76: smart pointers to polymorphic objects keep the dynamic type and the state of the object.
-/
namespace Verif.Poly
open OMap EnumKeys Verif.Json

namespace C76
/-- The objects the claim is made for: `type()` and the members have types and values for which
the round trip through JSON holds (C22), and no member is called `type`. -/
structure Good (lib : Lib) (kt : JT) (a : Obj) : Prop where
  okT : Ok .slot kt
  plT : Plain kt
  repT : Rep lib kt a.k
  ok : OkF a.fs
  nodup : (keysF a.fs).Nodup
  free : sType ∉ keysF a.fs
  rep : RepF lib a.fs a.v

/-- What is to be there afterwards: an object of the same dynamic type whose state is the packed
one (members that are excluded or const keep what the factory gave them). -/
def Same (create : Create) (a b : Obj) : Prop :=
  b.k = a.k ∧ ∃ init, create a.k = some (b.fs, init) ∧ b.fs = a.fs ∧
    b.v = restoreF a.fs a.v init ∧ (PlainF a.fs → b.v = a.v)

/-- The same for pointers. -/
def SameP (create : Create) (p q : Option Obj) : Prop :=
  (p = none ∧ q = none) ∨ ∃ a b, p = some a ∧ q = some b ∧ Same create a b

/-- The factory makes objects of the class the type stands for. -/
def Makes (create : Create) (a : Obj) : Prop :=
  ∃ init, create a.k = some (a.fs, init) ∧ TypedF a.fs init

end C76
open C76

private theorem sType_ok : DotFree sType ∧ sType ≠ [] := by
  constructor
  · unfold DotFree; decide
  · decide

private theorem rsnoc (cs : List Str) (k : Str) : render cs ++ dot :: k = render (cs ++ [k]) := by
  rw [render_append]; simp [render]

/-- The members of the JSON object written. -/
private def members (lib : Lib) (kt : JT) (a : Obj) : List (Str × J) :=
  encF lib a.fs a.v (mput strLt sType (enc lib kt a.k) [])

private theorem pack_obj {lib : Lib} {kt : JT} {a : Obj} (g : Good lib kt a) {o : JP}
    (hw : WF o.v) {cs : List Str} (hp : PathOk cs) (hx : walk o.v cs = .ok (.obj [])) :
    ((packJ lib kt o (render cs ++ dot :: sType) a.k).bind fun o =>
      packJ lib (.struct a.fs) o (render cs) a.v)
      = .ok { o with v := replace o.v cs (.obj (members lib kt a)) } := by
  have hpT : PathOk (cs ++ [sType]) := hp.snoc sType_ok
  rw [rsnoc, pack_mem lib kt a.k .slot o cs sType [] g.okT g.repT hpT hw hx (.inl ⟨rfl, rfl⟩)]
  simp only [R.bind, packJ]
  have hwm : WF (.obj (mput strLt sType (enc lib kt a.k) [])) := wf_put wf_nil _ (wf_enc lib kt a.k g.repT)
  have hw1 : WF (replace o.v cs (.obj (mput strLt sType (enc lib kt a.k) []))) := wf_replace hw hwm
  have hx1 := walk_replace (v := .obj (mput strLt sType (enc lib kt a.k) [])) hw hx
  rw [createObj_obj (o := { o with v := replace o.v cs (.obj (mput strLt sType (enc lib kt a.k) [])) })
    hw1 hp hx1]
  simp only
  rw [pack_F lib a.fs a.v
    { o with v := replace o.v cs (.obj (mput strLt sType (enc lib kt a.k) [])) } cs
    (mput strLt sType (enc lib kt a.k) []) g.ok g.rep hp hw1 hx1 g.nodup ?_]
  · simp only [members]
    rw [replace_replace hw]
  · intro k hk
    rw [mfind_mput strOrd, if_neg (by rintro rfl; exact g.free hk)]
    rfl

private theorem unpack_obj {lib : Lib} (hl : ∀ r, lib.narrow (lib.widen r) = r) {kt : JT} {a : Obj}
    (g : Good lib kt a) {create : Create} (hc : Makes create a) {o : JP} {cs : List Str}
    (hp : PathOk cs) (hx : walk o.v cs = .ok (.obj (members lib kt a))) {m : List (Str × J)}
    (hm : o.v = .obj m) (ht : (mfind strLt sType m).isSome = true) {junk : JV} (hj : Typed kt junk)
    (old : Option Obj) :
    ∃ b, unpack lib kt create junk o (render cs) old = (.ok, some b) ∧ Same create a b := by
  obtain ⟨init, hc, hi⟩ := hc
  obtain ⟨y, hy⟩ := Option.isSome_iff_exists.1 ht
  have h1 : unpackJ lib kt o (render cs ++ dot :: sType) junk = (.ok, a.k) := by
    rw [rsnoc, unpack_at hl kt a.k junk .slot o (cs ++ [sType]) g.okT g.repT hj (hp.snoc sType_ok)
      (by rw [walk_snoc hx, members, encF_other lib a.fs a.v _ _ g.free, mfind_mput strOrd, if_pos rfl]),
      restore_plain lib kt a.k junk g.plT g.repT hj]
  have h2 : unpackJ lib (.struct a.fs) o (render cs) init = (.ok, restoreF a.fs a.v init) := by
    simp only [unpackJ]
    exact unpack_F hl a.fs a.v init o cs _ g.ok g.rep hi hp hx (holds_encF lib a.fs a.v _ g.nodup)
  refine ⟨⟨a.k, a.fs, restoreF a.fs a.v init⟩, ?_, rfl, init, hc, rfl, rfl, fun hpl => ?_⟩
  · unfold unpack
    rw [hm]
    simp only [hy]
    rw [h1]
    simp only [hc, h2]
  · exact restoreF_plain lib a.fs a.v init hpl g.rep hi

private theorem root_wf : (JP.mk' J.null).objectify = ⟨.obj [], false, false⟩ := rfl

private theorem pack_root_obj {lib : Lib} {kt : JT} {a : Obj} (g : Good lib kt a) :
    pack lib kt (.mk' .null) [] (some a) = .ok ⟨.obj (members lib kt a), false, false⟩ := by
  unfold pack
  have h0 : createObj (.mk' .null) [] = .ok ⟨.obj [], false, false⟩ := rfl
  rw [h0]
  simp only [R.bind]
  have := pack_obj g (o := ⟨.obj [], false, false⟩) wf_nil (cs := []) (by intro c hc; cases hc) rfl
  simpa [render, replace, R.bind] using this

private theorem members_type {lib : Lib} {kt : JT} {a : Obj} (g : Good lib kt a) :
    (mfind strLt sType (members lib kt a)).isSome = true := by
  rw [members, encF_other lib a.fs a.v _ _ g.free, mfind_mput strOrd, if_pos rfl]; rfl

private theorem root_same {lib : Lib} (hl : ∀ r, lib.narrow (lib.widen r) = r) {kt : JT}
    {create : Create} {junk : JV} (hj : Typed kt junk) (p : Option Obj)
    (hg : ∀ a, p = some a → Good lib kt a ∧ Makes create a) :
    ∃ o, pack lib kt (.mk' .null) [] p = .ok o ∧ ∀ (toe tonf : Bool) (old : Option Obj),
      ∃ q, unpack lib kt create junk ⟨o.v, toe, tonf⟩ [] old = (.ok, q) ∧ SameP create p q := by
  cases p with
  | none => exact ⟨_, rfl, fun toe tonf old => ⟨none, rfl, .inl ⟨rfl, rfl⟩⟩⟩
  | some a =>
    obtain ⟨g, hc⟩ := hg a rfl
    refine ⟨_, pack_root_obj g, fun toe tonf old => ?_⟩
    obtain ⟨b, h1, h2⟩ := unpack_obj hl g hc (o := ⟨.obj (members lib kt a), toe, tonf⟩) (cs := [])
      (by intro c hc; cases hc) rfl rfl (members_type g) hj old
    exact ⟨some b, h1, .inr ⟨a, b, rfl, rfl, h2⟩⟩

/-- C76 in JSON, for a pointer that is the whole document: it refers afterwards to an object of the
same dynamic type in the same state, whatever it referred to before; a null pointer is null. -/
theorem C76_json_root_partial (lib : Lib) (hl : ∀ r, lib.narrow (lib.widen r) = r) (kt : JT)
    (create : Create) (junk : JV) (hj : Typed kt junk) (p : Option Obj)
    (hg : ∀ a, p = some a → Good lib kt a ∧ Makes create a) :
    ∃ o, pack lib kt (.mk' .null) [] p = .ok o ∧ ∀ (toe tonf : Bool) (old : Option Obj),
      ∃ q, unpack lib kt create junk ⟨o.v, toe, tonf⟩ [] old = (.ok, q) ∧ SameP create p q :=
  root_same hl hj p hg

private theorem vec_pack {lib : Lib} (hl : ∀ r, lib.narrow (lib.widen r) = r) {kt : JT}
    {create : Create} {junk : JV} (hj : Typed kt junk) : ∀ (l : List (Option Obj)),
    (∀ p ∈ l, ∀ a, p = some a → Good lib kt a ∧ Makes create a) →
    ∃ js, packV.go lib kt l = .ok js ∧ js.length = l.length ∧
      ∀ dst : List (Option Obj), dst.length = l.length →
        ∃ l', unpackV lib kt create junk js dst = (.ok, l') ∧ l'.length = l.length ∧
          ∀ (i : Nat) p q, l[i]? = some p → l'[i]? = some q → SameP create p q
  | [], _ => ⟨[], rfl, rfl, fun dst h => by
      cases dst with
      | nil => exact ⟨[], rfl, rfl, fun i p q h => by simp at h⟩
      | cons _ _ => simp at h⟩
  | p :: l, hg => by
    obtain ⟨o, h1, h2⟩ := root_same hl hj p (hg p (by simp))
    obtain ⟨js, h3, h4, h5⟩ := vec_pack hl hj l (fun p hp => hg p (by simp [hp]))
    refine ⟨o.v :: js, by simp [packV.go, h1, h3, R.bind], by simp [h4], fun dst hd => ?_⟩
    cases dst with
    | nil => simp at hd
    | cons x dst =>
      obtain ⟨q, h6, h7⟩ := h2 false false x
      obtain ⟨l', h8, h9, h10⟩ := h5 dst (by simpa using hd)
      refine ⟨q :: l', ?_, by simp [h9], ?_⟩
      · rw [unpackV, show JP.mk' o.v = ⟨o.v, false, false⟩ from rfl, h6]
        simp only [h8]
      · intro i p' q' hp hq
        cases i with
        | zero => simp at hp hq; subst hp hq; exact h7
        | succ i => exact h10 i p' q' (by simpa using hp) (by simpa using hq)

/-- C76 in JSON, for a vector of pointers, of any dynamic types and null ones among them. -/
theorem C76_json_vector_partial (lib : Lib) (hl : ∀ r, lib.narrow (lib.widen r) = r) (kt : JT)
    (create : Create) (junk : JV) (hj : Typed kt junk) (l : List (Option Obj))
    (hg : ∀ p ∈ l, ∀ a, p = some a → Good lib kt a ∧ Makes create a) :
    ∃ o, packV lib kt (.mk' .null) [] l = .ok o ∧
      ∀ (toe tonf : Bool) (dst : List (Option Obj)), ∃ l',
        unpackVec lib kt create junk ⟨o.v, toe, tonf⟩ [] dst = (.ok, l') ∧ l'.length = l.length ∧
          ∀ (i : Nat) p q, l[i]? = some p → l'[i]? = some q → SameP create p q := by
  obtain ⟨js, h1, h2, h3⟩ := vec_pack hl hj l hg
  obtain ⟨o, ho, hov⟩ := packCont_root (.mk' .null) root_free js
  refine ⟨o, ?_, fun toe tonf dst => ?_⟩
  · unfold packV
    rw [h1]
    exact ho
  · obtain ⟨l', h4, h5, h6⟩ := h3 (dst.take js.length ++ List.replicate (js.length - dst.length) none)
      (by simp; omega)
    refine ⟨l', ?_, h5, h6⟩
    unfold unpackVec
    have : find (.arr js) [] = .ok (.arr js) := rfl
    rw [hov]
    simp only [this, h4, catchU]

private theorem type_kept : ∀ (x : J) (ps : List Str) (v : J), ps ≠ [] → (∃ r, x = .obj r ∧
    (mfind strLt sType r).isSome = true) → ∃ r, replace x ps v = .obj r ∧ (mfind strLt sType r).isSome = true := by
  rintro x ps v hne ⟨r, rfl, h⟩
  cases ps with
  | nil => exact absurd rfl hne
  | cons c ps =>
    simp only [replace]
    cases hf : mfind strLt c r with
    | none => exact ⟨r, rfl, h⟩
    | some y =>
      refine ⟨_, rfl, ?_⟩
      rw [mfind_mput strOrd]
      split
      · rfl
      · exact h

/-- C76 in JSON, for a pointer that is a member of an object of a document which itself has a
member `type`, as when a polymorphic object is packed: the pointer, if not null, is restored. -/
theorem C76_json_nested_partial (lib : Lib) (hl : ∀ r, lib.narrow (lib.widen r) = r) (kt : JT)
    (create : Create) (junk : JV) (hj : Typed kt junk) (a : Obj) (g : Good lib kt a)
    (hc : Makes create a) (o : JP) (hw : WF o.v) (cs : List Str) (k : Str)
    (hp : PathOk (cs ++ [k])) (m : List (Str × J)) (hx : walk o.v cs = .ok (.obj m))
    (hn : mfind strLt k m = none) (r : List (Str × J)) (hr : o.v = .obj r)
    (ht : (mfind strLt sType r).isSome = true) :
    ∃ o', pack lib kt o (render (cs ++ [k])) (some a) = .ok o' ∧
      ∀ (toe tonf : Bool) (old : Option Obj), ∃ b,
        unpack lib kt create junk ⟨o'.v, toe, tonf⟩ (render (cs ++ [k])) old = (.ok, some b) ∧
          Same create a b := by
  have hs := walk_sorted hw hx
  have hwm : WF (.obj (minsert strLt k (.obj []) m)) := wf_minsert (walk_wf hw hx) k
  have hw1 : WF (replace o.v cs (.obj (minsert strLt k (.obj []) m))) := wf_replace hw hwm
  have hk : mfind strLt k (minsert strLt k (.obj []) m) = some (.obj []) :=
    SlotOk.minsert (p := .slot) (.inl ⟨rfl, hn⟩)
  have hx1 : walk (replace o.v cs (.obj (minsert strLt k (.obj []) m))) (cs ++ [k])
      = .ok (.obj []) := by
    rw [walk_snoc (walk_replace hw hx), hk]
  refine ⟨{ o with
    v := replace (replace o.v cs (.obj (minsert strLt k (.obj []) m))) (cs ++ [k])
      (.obj (members lib kt a)) }, ?_, fun toe tonf old => ?_⟩
  · unfold pack
    rw [createObj_mem hp hx]
    exact pack_obj g (o := { o with v := replace o.v cs (.obj (minsert strLt k (.obj []) m)) }) hw1 hp hx1
  · have key := type_kept
    have h1 : ∃ r, replace o.v cs (.obj (minsert strLt k (.obj []) m)) = .obj r ∧
        (mfind strLt sType r).isSome = true := by
      by_cases he : cs = []
      · subst he
        simp only [walk] at hx
        rw [hr] at hx
        cases hx
        refine ⟨_, by rw [hr]; rfl, ?_⟩
        rw [mfind_minsert strOrd]
        split
        · rfl
        · exact ht
      · exact key _ _ _ he ⟨r, hr, ht⟩
    obtain ⟨r2, h2, h3⟩ := key _ (cs ++ [k]) (.obj (members lib kt a)) (by simp) h1
    exact unpack_obj hl g hc
      (o := ⟨replace (replace o.v cs (.obj (minsert strLt k (.obj []) m))) (cs ++ [k])
        (.obj (members lib kt a)), toe, tonf⟩) hp (walk_replace hw1 hx1) h2 h3 hj old

/-- The same for an object of a class with such a pointer among its members, itself somewhere in a document with a member
`type`: the pointer and the other members are all restored. -/
theorem C76_json_class_partial (lib : Lib) (hl : ∀ r, lib.narrow (lib.widen r) = r) (kt : JT)
    (create : Create) (junk : JV) (hj : Typed kt junk) (a : Obj) (g : Good lib kt a)
    (hc : Makes create a) (o : JP) (hw : WF o.v) (cs : List Str) (k n : Str) (fs : Fs) (v w : JV)
    (hp : PathOk (cs ++ [k])) (hn : DotFree n ∧ n ≠ []) (m : List (Str × J)) (hx : walk o.v cs = .ok (.obj m))
    (hk : mfind strLt k m = none) (r : List (Str × J)) (hr : o.v = .obj r)
    (ht : (mfind strLt sType r).isSome = true) (hf : OkF fs) (hnd : (n :: keysF fs).Nodup) (hv : RepF lib fs v)
    (htw : TypedF fs w) :
    ∃ o', packC lib kt n fs o (render (cs ++ [k])) (some a) v = .ok o' ∧
      ∀ (toe tonf : Bool) (old : Option Obj), ∃ b,
        unpackC lib kt create junk n fs ⟨o'.v, toe, tonf⟩ (render (cs ++ [k])) old w =
          (.ok, some b, restoreF fs v w) ∧ Same create a b := by
  simp only [List.nodup_cons] at hnd
  generalize hq : cs ++ [k] = q at *
  have hpn : PathOk (q ++ [n]) := hp.snoc hn
  have hk1 : mfind strLt k (minsert strLt k (.obj []) m) = some (.obj []) := SlotOk.minsert (p := .slot) (.inl ⟨rfl, hk⟩)
  have hwm : WF (.obj (minsert strLt k (.obj []) m)) := wf_minsert (walk_wf hw hx) k
  generalize h1 : replace o.v cs (.obj (minsert strLt k (.obj []) m)) = x1
  have hw1 : WF x1 := h1 ▸ wf_replace hw hwm
  have hx1 : walk x1 q = .ok (.obj []) := by
    rw [← h1, ← hq, walk_snoc (walk_replace hw hx), hk1]
  have hm1 : minsert strLt n (J.obj []) [] = [(n, .obj [])] := rfl
  have hf1 : mfind strLt n [(n, J.obj [])] = some (.obj []) := by simp [mfind, strOrd.irrefl]
  have hw2 : WF (replace x1 q (.obj [(n, .obj [])])) :=
    wf_replace hw1 (by have := wf_minsert wf_nil n; rwa [hm1] at this)
  have hx2 : walk (replace x1 q (.obj [(n, .obj [])])) (q ++ [n]) = .ok (.obj []) := by
    rw [walk_snoc (walk_replace hw1 hx1), hf1]
  have hM : WF (.obj (members lib kt a)) := wf_encF lib a.fs a.v _ g.rep (wf_put wf_nil _ (wf_enc lib kt a.k g.repT))
  have hput : mput strLt n (J.obj (members lib kt a)) [(n, .obj [])] = [(n, .obj (members lib kt a))] := by
    simp [mput, strOrd.irrefl]
  have hf3 : ∀ q, q ≠ n → mfind strLt q [(n, J.obj (members lib kt a))] = none := by
    intro q hq
    have : mfind strLt q (mput strLt n (J.obj (members lib kt a)) []) = none := by
      rw [mfind_mput strOrd, if_neg hq]; rfl
    simpa [mput] using this
  have hf4 : mfind strLt n [(n, J.obj (members lib kt a))] = some (.obj (members lib kt a)) := by
    simp [mfind, strOrd.irrefl]
  have hwn : WF (.obj [(n, .obj (members lib kt a))]) := by
    have := wf_put (wf_minsert wf_nil n) n hM
    rwa [hm1, hput] at this
  have e3 : replace (replace x1 q (.obj [(n, .obj [])])) (q ++ [n]) (.obj (members lib kt a)) =
      replace x1 q (.obj [(n, .obj (members lib kt a))]) := by
    rw [replace_snoc hw2 (walk_replace hw1 hx1) hf1, hput, replace_replace hw1]
  have ep : pack lib kt { o with v := x1 } (render q ++ dot :: n) (some a) =
      .ok { o with v := replace x1 q (.obj [(n, .obj (members lib kt a))]) } := by
    unfold pack
    rw [rsnoc, createObj_mem (o := { o with v := x1 }) hpn hx1, hm1]
    have := pack_obj g (o := { o with v := replace x1 q (.obj [(n, .obj [])]) }) hw2 hpn hx2
    simp only [e3] at this
    exact this
  have hw3 : WF (replace x1 q (.obj [(n, .obj (members lib kt a))])) := wf_replace hw1 hwn
  have hx3 : walk (replace x1 q (.obj [(n, .obj (members lib kt a))])) q = .ok (.obj [(n, .obj (members lib kt a))]) :=
    walk_replace hw1 hx1
  have ef := pack_F lib fs v { o with v := replace x1 q (.obj [(n, .obj (members lib kt a))]) } q _ hf hv hp hw3 hx3 hnd.2
    fun k hk => hf3 k (by rintro rfl; exact hnd.1 hk)
  simp only [replace_replace hw1] at ef
  refine ⟨{ o with v := replace x1 q (.obj (encF lib fs v [(n, .obj (members lib kt a))])) }, ?_, fun toe tonf old => ?_⟩
  · unfold packC
    rw [← hq, createObj_mem (by rw [hq]; exact hp) hx, h1, hq]
    simp only [R.bind]
    rw [ep]
    exact ef
  · generalize h4 : replace x1 q (.obj (encF lib fs v [(n, .obj (members lib kt a))])) = x4
    have hx4 : walk x4 q = .ok (.obj (encF lib fs v [(n, .obj (members lib kt a))])) := h4 ▸ walk_replace hw1 hx1
    have hx5 : walk x4 (q ++ [n]) = .ok (.obj (members lib kt a)) := by
      rw [walk_snoc hx4, encF_other lib fs v _ _ hnd.1, hf4]
    have hqne : q ≠ [] := by rw [← hq]; simp
    have hr1 : ∃ r, x1 = .obj r ∧ (mfind strLt sType r).isSome = true := by
      rw [← h1]
      by_cases he : cs = []
      · subst he
        simp only [walk] at hx
        rw [hr] at hx
        cases hx
        refine ⟨_, by rw [hr]; rfl, ?_⟩
        rw [mfind_minsert strOrd]
        split
        · rfl
        · exact ht
      · exact type_kept _ _ _ he ⟨r, hr, ht⟩
    obtain ⟨r2, hr2, ht2⟩ : ∃ r, x4 = .obj r ∧ (mfind strLt sType r).isSome = true := h4 ▸ type_kept _ _ _ hqne hr1
    obtain ⟨b, hb, hs⟩ := unpack_obj hl g hc (o := ⟨x4, toe, tonf⟩) hpn hx5 hr2 ht2 hj old
    refine ⟨b, ?_, hs⟩
    unfold unpackC
    rw [rsnoc, hb]
    simp only
    rw [unpack_F hl fs v w ⟨x4, toe, tonf⟩ q _ hf hv htw hp hx4 (holds_encF lib fs v _ hnd.2)]

/-- The document written for a pointer has the object's type as its member "type". -/
theorem C76_json_document (lib : Lib) (kt : JT) (a : Obj) (g : Good lib kt a) :
    ∃ o m, pack lib kt (.mk' .null) [] (some a) = .ok o ∧ o.v = .obj m ∧
      mfind strLt "type".toUTF8.toList m = some (enc lib kt a.k) := by
  refine ⟨_, _, pack_root_obj g, rfl, ?_⟩
  rw [show "type".toUTF8.toList = sType by decide +kernel, members, encF_other lib a.fs a.v _ _ g.free,
    mfind_mput strOrd, if_pos rfl]

/-- When an element of a vector cannot be read (its type is unknown to the factory, say), those before it have been read
and those after it are as they were. -/
theorem C76_json_vector_stops (lib : Lib) (kt : JT) (create : Create) (junk : JV) (js js' : List J) (j : J)
    (ps ps' qs : List (Option Obj)) (p q : Option Obj) (oc : Oc)
    (h : unpackV lib kt create junk js ps = (.ok, qs)) (hlen : js.length = ps.length)
    (hj : unpack lib kt create junk (.mk' j) [] p = (oc, q)) (hoc : oc ≠ .ok) :
    unpackV lib kt create junk (js ++ j :: js') (ps ++ p :: ps') = (oc, qs ++ q :: ps') := by
  induction js generalizing ps qs with
  | nil =>
    cases ps with
    | cons _ _ => simp at hlen
    | nil =>
      simp only [unpackV] at h
      cases h
      simp only [List.nil_append, unpackV, hj]
  | cons x js ih =>
    cases ps with
    | nil => simp at hlen
    | cons y ps =>
      simp only [unpackV] at h
      simp only [List.cons_append, unpackV]
      generalize unpack lib kt create junk (.mk' x) [] y = e at h ⊢
      obtain ⟨o1, q1⟩ := e
      cases o1 with
      | ok =>
        simp only at h ⊢
        generalize hr : unpackV lib kt create junk js ps = e at h
        obtain ⟨o2, l⟩ := e
        simp only [Prod.mk.injEq] at h
        obtain ⟨rfl, rfl⟩ := h
        rw [ih ps l hr (by simpa using hlen)]
        rfl
      | _ => simp at h

/-! ### Where it fails -/

/-- A pointer is null after unpacking, and no error is reported whatever the flags, if the document
as a whole has no member `type`: what is at the pointer's own path does not matter. -/
theorem C76_json_ignored (lib : Lib) (kt : JT) (create : Create) (junk : JV) (o : JP) (d : Str)
    (old : Option Obj) (m : List (Str × J)) (hm : o.v = .obj m) (ht : mfind strLt sType m = none) :
    unpack lib kt create junk o d old = (.ok, none) := by
  unfold unpack
  rw [hm]
  simp only [ht]

/-- So a pointer that is a member of a class is lost: the document has the type and the state of
the object, but the pointer comes back null, without an error. -/
theorem C76_json_member_fails (lib : Lib) (hl : ∀ r, lib.narrow (lib.widen r) = r) (kt : JT)
    (create : Create) (junk : JV) (n : Str) (fs : Fs) (a : Obj) (v w : JV) (g : Good lib kt a)
    (hn : DotFree n ∧ n ≠ []) (hk : OkF fs) (hnd : (n :: keysF fs).Nodup)
    (hf : sType ∉ n :: keysF fs) (hv : RepF lib fs v) (hw : TypedF fs w) :
    ∃ o, packC lib kt n fs (.mk' .null) [] (some a) v = .ok o ∧
      find o.v (dot :: n ++ dot :: sType) = .ok (enc lib kt a.k) ∧
      ∀ (toe tonf : Bool) (old : Option Obj),
        unpackC lib kt create junk n fs ⟨o.v, toe, tonf⟩ [] old w = (.ok, none, restoreF fs v w) := by
  simp only [List.nodup_cons, List.mem_cons, not_or] at hnd hf
  have hp : PathOk [n] := by intro c hc; simp at hc; subst hc; exact hn
  have hpn : PathOk [] := by intro c hc; cases hc
  have hr : dot :: n = render [n] := by simp [render]
  have hs : Sorted strLt ([] : List (Str × J)) := by simp [Sorted]
  have hm1 : minsert strLt n (J.obj []) [] = [(n, .obj [])] := rfl
  have hw1 : WF (.obj [(n, .obj [])]) := by
    have := wf_minsert wf_nil n
    rwa [hm1] at this
  have hx1 : walk (.obj [(n, .obj [])]) [n] = .ok (.obj []) := by
    simp [walk, mfind, strOrd.irrefl]
  have hwm : WF (.obj (members lib kt a)) :=
    wf_encF lib a.fs a.v _ g.rep (wf_put wf_nil _ (wf_enc lib kt a.k g.repT))
  have e1 : pack lib kt ⟨.obj [], false, false⟩ (render [n]) (some a) =
      .ok ⟨.obj [(n, .obj (members lib kt a))], false, false⟩ := by
    unfold pack
    have := createObj_mem (o := ⟨.obj [], false, false⟩) (cs := []) (k := n) (m := []) hp rfl
    simp only [List.nil_append] at this
    rw [this]
    simp only [replace, hm1]
    have := pack_obj g (o := ⟨.obj [(n, .obj [])], false, false⟩) hw1 (cs := [n]) hp hx1
    simp only [R.bind] at this ⊢
    rw [this]
    simp [replace, mfind, mput, strOrd.irrefl]
  have hw2 : WF (.obj [(n, .obj (members lib kt a))]) := by
    have := wf_put hw1 n hwm
    simpa [mput, strOrd.irrefl] using this
  have e2 := pack_F lib fs v ⟨.obj [(n, .obj (members lib kt a))], false, false⟩ []
    [(n, .obj (members lib kt a))] hk hv hpn hw2 rfl hnd.2 (by
      intro k hk'
      have hne : k ≠ n := by rintro rfl; exact hnd.1 hk'
      have : mfind strLt k (mput strLt n (J.obj (members lib kt a)) []) = none := by
        rw [mfind_mput strOrd, if_neg hne]; rfl
      simpa [mput] using this)
  refine ⟨⟨.obj (encF lib fs v [(n, .obj (members lib kt a))]), false, false⟩, ?_, ?_, ?_⟩
  · unfold packC
    rw [show createObj (.mk' .null) [] = .ok ⟨.obj [], false, false⟩ from rfl]
    simp only [R.bind, List.nil_append]
    rw [hr, e1]
    simpa [render, replace] using e2
  · have : dot :: n ++ dot :: sType = render [n, sType] := by simp [render]
    rw [this, find_render (by
      intro c hc; simp at hc; rcases hc with rfl | rfl
      · exact hn.1
      · exact sType_ok.1)]
    simp only [walk]
    rw [encF_other lib fs v _ _ hnd.1]
    simp only [mfind, strOrd.irrefl]
    simp only [Bool.false_eq_true, if_false]
    simp only [walk]
    rw [members, encF_other lib a.fs a.v _ _ g.free, mfind_mput strOrd, if_pos rfl]
  · intro toe tonf old
    unfold unpackC
    rw [C76_json_ignored lib kt create junk ⟨_, toe, tonf⟩ _ old _ rfl (by
      rw [encF_other lib fs v _ _ hf.2]
      have : mfind strLt sType (mput strLt n (J.obj (members lib kt a)) []) = none := by
        rw [mfind_mput strOrd, if_neg hf.1]; rfl
      simpa [mput] using this)]
    have := unpack_F hl fs v w ⟨.obj (encF lib fs v [(n, .obj (members lib kt a))]), toe, tonf⟩ []
      _ hk hv hw hpn rfl (holds_encF lib fs v _ hnd.2)
    simp only
    rw [show ([] : Str) = render [] from rfl, this]

/-- A null pointer below an object with a type makes an object of whatever type happens to be in an
uninitialised variable. -/
theorem C76_json_null_child_fails (lib : Lib) (u : Under) (create : Create) (junk : JV) (o : JP)
    (d : Str) (old : Option Obj) (m : List (Str × J)) (hm : o.v = .obj m)
    (ht : (mfind strLt sType m).isSome = true) (htoe : o.throwOnError = false)
    (hd : find o.v (d ++ dot :: sType) = .throw .notFound) (fs : Fs) (init : JV)
    (hc : create junk = some (fs, init)) :
    ∃ b, (unpack lib (.int u) create junk o d old).2 = some b ∧ b.k = junk := by
  obtain ⟨y, hy⟩ := Option.isSome_iff_exists.1 ht
  have h1 : unpackJ lib (.int u) o (d ++ dot :: sType) junk = (.ok, junk) := by
    simp only [unpackJ, unpackLeaf, hd, R.bind, catchU, htoe, Err.isPack]
    rfl
  unfold unpack
  rw [hm]
  simp only [hy]
  rw [h1]
  simp only [hc]
  exact ⟨_, rfl, rfl⟩

/-! ### Concrete cases -/

namespace C76
def lib0 : Lib := ⟨.lib, 0, fun i => i.toNat, id, id⟩
def i32 : JT := .int ⟨.w32, true⟩
/-- Two classes: type 1 with `int a`, type 2 with `string b`. -/
def cls1 : Fs := .mem [97] i32 .nil
def cls2 : Fs := .mem [98] .str .nil
def make : Create
  | .int 1 => some (cls1, .pair (.int 0) .unit)
  | .int 2 => some (cls2, .pair (.str []) .unit)
  | _ => none
def obj1 : Obj := ⟨.int 1, cls1, .pair (.int 7) .unit⟩
def obj2 : Obj := ⟨.int 2, cls2, .pair (.str [120]) .unit⟩
end C76

private theorem good1 : Good lib0 i32 obj1 ∧ Makes make obj1 := by
  refine ⟨⟨trivial, trivial, ⟨1, rfl, by decide, by decide⟩, ⟨⟨?_, by decide⟩, .inr trivial, trivial⟩, ?_, ?_,
    ⟨_, _, rfl, ⟨7, rfl, by decide, by decide⟩, rfl⟩⟩, _, rfl, _, _, rfl, ⟨0, rfl, by decide, by decide⟩, rfl⟩
  · unfold DotFree; decide
  · simp [obj1, cls1, keysF, isExcl, i32]
  · simp [obj1, cls1, keysF, isExcl, i32, sType]

private theorem good2 : Good lib0 i32 obj2 ∧ Makes make obj2 := by
  refine ⟨⟨trivial, trivial, ⟨2, rfl, by decide, by decide⟩, ⟨⟨?_, by decide⟩, .inr trivial, trivial⟩, ?_, ?_,
    ⟨_, _, rfl, ⟨_, rfl⟩, rfl⟩⟩, _, rfl, _, _, rfl, ⟨_, rfl⟩, rfl⟩
  · unfold DotFree; decide
  · simp [obj2, cls2, keysF, isExcl]
  · simp [obj2, cls2, keysF, isExcl, sType]

private theorem ex_typed : Typed i32 (.int 99) := ⟨99, rfl, by decide, by decide⟩

/-- A vector of objects of both classes and a null pointer. -/
example : ∃ o, packV lib0 i32 (.mk' .null) [] [some obj1, none, some obj2] = .ok o ∧
    ∀ (toe tonf : Bool) (dst : List (Option Obj)), ∃ l',
      unpackVec lib0 i32 make (.int 99) ⟨o.v, toe, tonf⟩ [] dst = (.ok, l') ∧ l'.length = 3 ∧
        ∀ (i : Nat) p q, [some obj1, none, some obj2][i]? = some p → l'[i]? = some q → SameP make p q :=
  C76_json_vector_partial lib0 (fun _ => rfl) i32 make (.int 99) ex_typed _ (by
    intro p hp a ha
    simp only [List.mem_cons, List.not_mem_nil, or_false] at hp
    rcases hp with rfl | rfl | rfl
    · cases ha; exact good1
    · cases ha
    · cases ha; exact good2)

example : ∃ o, pack lib0 i32 (.mk' .null) [] (some obj2) = .ok o ∧ ∀ (toe tonf : Bool) (old : Option Obj),
    ∃ q, unpack lib0 i32 make (.int 99) ⟨o.v, toe, tonf⟩ [] old = (.ok, q) ∧ SameP make (some obj2) q :=
  C76_json_root_partial lib0 (fun _ => rfl) i32 make (.int 99) ex_typed _ (by
    intro a ha; cases ha; exact good2)

/-- A second object below one with a type. -/
example : ∃ o', pack lib0 i32 ⟨.obj [(sType, .int 1)], false, false⟩ (render ([] ++ [[99]])) (some obj2) = .ok o' ∧
    ∀ (toe tonf : Bool) (old : Option Obj), ∃ b,
      unpack lib0 i32 make (.int 99) ⟨o'.v, toe, tonf⟩ (render ([] ++ [[99]])) old = (.ok, some b) ∧
        Same make obj2 b :=
  C76_json_nested_partial lib0 (fun _ => rfl) i32 make (.int 99) ex_typed obj2 good2.1 good2.2 _
    (by rw [WF]; simp [Sorted, WF]) [] [99]
    (by intro c hc; simp at hc; subst hc; constructor
        · unfold DotFree; decide
        · decide) _ rfl (by decide) _ rfl (by decide)

/-- `struct { shared_ptr<Base> p; int a; }` below an object with a type. -/
example : ∃ o', packC lib0 i32 [112] cls1 ⟨.obj [(sType, .int 1)], false, false⟩ (render ([] ++ [[99]])) (some obj2)
      (.pair (.int 5) .unit) = .ok o' ∧
    ∀ (toe tonf : Bool) (old : Option Obj), ∃ b,
      unpackC lib0 i32 make (.int 99) [112] cls1 ⟨o'.v, toe, tonf⟩ (render ([] ++ [[99]])) old (.pair (.int 0) .unit) =
        (.ok, some b, restoreF cls1 (.pair (.int 5) .unit) (.pair (.int 0) .unit)) ∧ Same make obj2 b :=
  C76_json_class_partial lib0 (fun _ => rfl) i32 make (.int 99) ex_typed obj2 good2.1 good2.2 _
    (by rw [WF]; simp [Sorted, WF]) [] [99] [112] cls1 _ _
    (by intro c hc; simp at hc; subst hc; constructor
        · unfold DotFree; decide
        · decide) ⟨by unfold DotFree; decide, by decide⟩ _ rfl (by decide) _ rfl (by decide) good1.1.ok
    (by simp [cls1, keysF, isExcl, i32]) ⟨_, _, rfl, ⟨5, rfl, by decide, by decide⟩, rfl⟩
    ⟨_, _, rfl, ⟨0, rfl, by decide, by decide⟩, rfl⟩

example : ∃ o m, pack lib0 i32 (.mk' .null) [] (some obj2) = .ok o ∧ o.v = .obj m ∧
    mfind strLt "type".toUTF8.toList m = some (enc lib0 i32 (.int 2)) := C76_json_document lib0 i32 obj2 good2.1

/-- The second element has a type nobody knows. -/
example : unpackV lib0 i32 make (.int 99) ([.obj []] ++ .obj [(sType, .int 9)] :: [.obj []]) ([some obj1] ++ some obj2 :: [some obj1]) =
    (.throw .lib, [none] ++ some obj2 :: [some obj1]) :=
  C76_json_vector_stops lib0 i32 make (.int 99) _ _ _ _ _ _ _ _ _ rfl rfl rfl (by simp)

/-- `struct { shared_ptr<Base> p; int a; }`. -/
example : ∃ o, packC lib0 i32 [112] cls1 (.mk' .null) [] (some obj2) (.pair (.int 5) .unit) = .ok o ∧
    find o.v (dot :: [112] ++ dot :: sType) = .ok (enc lib0 i32 (.int 2)) ∧
    ∀ (toe tonf : Bool) (old : Option Obj),
      unpackC lib0 i32 make (.int 99) [112] cls1 ⟨o.v, toe, tonf⟩ [] old (.pair (.int 0) .unit) =
        (.ok, none, restoreF cls1 (.pair (.int 5) .unit) (.pair (.int 0) .unit)) :=
  C76_json_member_fails lib0 (fun _ => rfl) i32 make (.int 99) [112] cls1 obj2 _ _ good2.1
    ⟨by unfold DotFree; decide, by decide⟩ good1.1.ok (by simp [cls1, keysF, isExcl, i32])
    (by simp [cls1, keysF, isExcl, i32, sType]) ⟨_, _, rfl, ⟨5, rfl, by decide, by decide⟩, rfl⟩
    ⟨_, _, rfl, ⟨0, rfl, by decide, by decide⟩, rfl⟩

example : ∃ b, (unpack lib0 i32 make (.int 2)
    ⟨.obj [([99], .obj []), (sType, .int 1)], false, false⟩ [46, 99] none).2 = some b ∧ b.k = .int 2 :=
  C76_json_null_child_fails lib0 _ make (.int 2) _ _ none _ rfl (by decide) rfl rfl _ _ rfl

end Verif.Poly

/-! ### XML -/

namespace Verif.Xml
open OMap EnumKeys
open Verif.Json (JV dot tail)
open XmlP

namespace C76
/-- A pointer: null, or to an object of a dynamic type in a state. -/
def ptrV : Option (JV × JV) → JV
  | none => .null
  | some (k, x) => .ptr (.pair k x)

/-- The objects the claim is made for, by the conditions of C27. -/
structure GoodX (g : Cfg) (miss : Bool) (kt : XT) (cls : JV → Fs) (known : JV → Bool) (k x : JV) :
    Prop where
  known : known k = true
  valT : Val g kt k
  val : ValF g (cls k) x
  wrT : Wr g okRun kt k
  wr : WrF g okRun (cls k) x
  fitT : Fit miss kt k (dflt kt)
  fit : FitF miss (cls k) x (dfltF (cls k))

/-- The hierarchy: types and classes that can be written and read back, without members called
`type`. -/
structure Hier (kt : XT) (cls : JV → Fs) : Prop where
  simple : isPtr kt = false
  typeT : TypeOK kt
  namesT : NamesOK kt
  type : ∀ k, (sType :: namesF (cls k)).Nodup ∧ TypeOKF (cls k)
  names : ∀ k, NamesOKF (cls k)
end C76
open C76

/-- C76 in XML: the pointer, whatever it referred to before, refers afterwards to an object of the
same dynamic type in the same state, or is null if it was. -/
theorem C76_xml_root_partial {g : Cfg} {miss : Bool} {kt : XT} {cls : JV → Fs} {known : JV → Bool}
    (hs : SchemaOK g.schema) {n : Str} (hn : XmlName n) (hh : Hier kt cls) (p : Option (JV × JV))
    (hp : ∀ k x, p = some (k, x) → GoodX g miss kt cls known k x) (old : JV) :
    ∃ m, parse g.sgn DB.empty (packDoc g (.poly kt cls known) n (ptrV p)) = some m ∧
      unpackX miss m (.poly kt cls known) n old = some (ptrV p) := by
  refine roundtrip hs hn (by simp only [NamesOK]; exact ⟨hh.namesT, hh.names⟩)
    (by simp only [TypeOK]; exact ⟨hh.simple, hh.typeT, hh.type⟩) ?_ trivial ?_ ?_
  · simp only [Val]
    rcases p with _ | ⟨k, x⟩
    · exact .inl rfl
    · have := hp k x rfl
      exact .inr ⟨k, x, rfl, this.known, this.valT, this.val⟩
  · rcases p with _ | ⟨k, x⟩
    · simp only [ptrV, Wr]
    · have := hp k x rfl
      simp only [ptrV, Wr]; exact ⟨this.wrT, this.wr⟩
  · rcases p with _ | ⟨k, x⟩
    · simp only [ptrV, Fit]
    · have := hp k x rfl
      simp only [ptrV, Fit]; exact ⟨this.fitT, this.fit⟩

/-- C76 in XML, for a class with a vector of pointers of any dynamic types, null ones among them,
and one more pointer. -/
theorem C76_xml_vector_partial {g : Cfg} {miss : Bool} {kt : XT} {cls : JV → Fs} {known : JV → Bool}
    (hs : SchemaOK g.schema) {n e a b : Str} (hn : XmlName n) (he : XmlName e) (ha : XmlName a)
    (hb : XmlName b) (hab : a ≠ b) (hh : Hier kt cls) (l : List (Option (JV × JV)))
    (p : Option (JV × JV))
    (hp : ∀ q ∈ p :: l, ∀ k x, q = some (k, x) → GoodX g miss kt cls known k x) (old : JV) :
    ∃ m, parse g.sgn DB.empty (packDoc g (.struct (.mem a (.seq e (.poly kt cls known))
        (.mem b (.poly kt cls known) .nil))) n (.pair (.seq (l.map ptrV)) (.pair (ptrV p) .unit))) = some m ∧
      unpackX miss m (.struct (.mem a (.seq e (.poly kt cls known))
        (.mem b (.poly kt cls known) .nil))) n old =
        some (.pair (.seq (l.map ptrV)) (.pair (ptrV p) .unit)) := by
  have hv : ∀ q ∈ p :: l, Val g (.poly kt cls known) (ptrV q) ∧ Wr g okRun (.poly kt cls known) (ptrV q) ∧
      ∀ o, Fit miss (.poly kt cls known) (ptrV q) o := by
    intro q hq
    rcases q with _ | ⟨k, x⟩
    · refine ⟨?_, ?_, fun o => ?_⟩
      · simp only [Val]; exact .inl rfl
      · simp only [ptrV, Wr]
      · simp only [ptrV, Fit]
    · have := hp _ hq k x rfl
      refine ⟨?_, ?_, fun o => ?_⟩
      · simp only [Val]; exact .inr ⟨k, x, rfl, this.known, this.valT, this.val⟩
      · simp only [ptrV, Wr]; exact ⟨this.wrT, this.wr⟩
      · simp only [ptrV, Fit]; exact ⟨this.fitT, this.fit⟩
  have hN : NamesOK (.poly kt cls known) := by simp only [NamesOK]; exact ⟨hh.namesT, hh.names⟩
  have hT : TypeOK (.poly kt cls known) := by simp only [TypeOK]; exact ⟨hh.simple, hh.typeT, hh.type⟩
  have hvp := hv p (by simp)
  refine roundtrip hs hn (by simp only [NamesOK, NamesOKF] at hN ⊢; exact ⟨ha, ⟨he, hN⟩, hb, hN, trivial⟩)
    ?_ ?_ trivial ?_ ?_
  · simp only [TypeOK, TypeOKF, namesF, ElemType] at hT ⊢
    exact ⟨by simpa using hab, ⟨trivial, hT⟩, hT, trivial⟩
  · simp only [Val, ValF] at hvp ⊢
    refine ⟨_, _, rfl, ⟨_, rfl, fun x hx => ?_⟩, _, _, rfl, hvp.1, rfl⟩
    obtain ⟨q, hq, rfl⟩ := List.mem_map.1 hx
    have := (hv q (by simp [hq])).1
    simp only [Val] at this
    exact ⟨this, trivial⟩
  · rw [Wr, WrF, WrF, WrF]
    refine ⟨?_, hvp.2.1, trivial⟩
    rw [Wr]
    intro x hx
    simp only [fstOf, elemsOf] at hx
    obtain ⟨q, hq, rfl⟩ := List.mem_map.1 hx
    exact (hv q (by simp [hq])).2.1
  · rw [Fit, FitF, FitF, FitF]
    refine ⟨?_, hvp.2.2 _, trivial⟩
    rw [Fit]
    intro x hx
    simp only [fstOf, elemsOf] at hx
    obtain ⟨q, hq, rfl⟩ := List.mem_map.1 hx
    exact (hv q (by simp [hq])).2.2 _

/-- A reader whose factory does not know the type of the object throws; it does not make another. -/
theorem C76_xml_unknown {g : Cfg} {miss : Bool} {kt : XT} {cls : JV → Fs} {known known' : JV → Bool}
    (hs : SchemaOK g.schema) {n : Str} (hn : XmlName n) (hh : Hier kt cls) (k x : JV)
    (hp : GoodX g miss kt cls known k x) (hk : known' k = false) (old : JV) :
    ∃ m, parse g.sgn DB.empty (packDoc g (.poly kt cls known) n (ptrV (some (k, x)))) = some m ∧
      unpackX miss m (.poly kt cls known') n old = none := by
  obtain ⟨m, h1, h2⟩ := C76_xml_root_partial hs hn hh (some (k, x))
    (by rintro k' x' h; cases h; exact hp) old
  refine ⟨m, h1, ?_⟩
  rw [unpackX] at h2 ⊢
  simp only [ptrV] at h2
  cases he : existsK m (n ++ dot :: sType) with
  | false => rw [he] at h2; simp at h2
  | true =>
    rw [he] at h2
    simp only [if_true] at h2 ⊢
    cases hu : unpackX miss m kt (n ++ dot :: sType) (dflt kt) with
    | none => rfl
    | some k' =>
      rw [hu] at h2
      simp only [Option.bind_some] at h2 ⊢
      cases hkk : known k' with
      | false => rw [hkk] at h2; simp at h2
      | true =>
        rw [hkk] at h2
        simp only [if_true, Option.map_eq_some_iff] at h2
        obtain ⟨y, -, h⟩ := h2
        cases h
        rw [hk]; rfl

namespace C76
/-- Type 1 with `int x`, type 2 with `string s`. -/
def clsX : JV → Fs
  | .int 1 => .mem (b "x") (.int int32) .nil
  | _ => .mem (b "s") .str .nil
def knownX : JV → Bool
  | .int 1 | .int 2 => true
  | _ => false
/-- Type 1 has a member `type`. -/
def clsT : JV → Fs := fun _ => .mem (b "type") (.int int32) .nil
end C76

private theorem hierX : Hier (.int int32) clsX := by
  have hx : XmlName (b "x") := xmlName _ (by decide) (by decide) (by decide) (by decide)
  have hs : XmlName (b "s") := xmlName _ (by decide) (by decide) (by decide) (by decide)
  have hc : ∀ k, clsX k = .mem (b "x") (.int int32) .nil ∨ clsX k = .mem (b "s") .str .nil := by
    intro k; unfold clsX; split
    · exact .inl rfl
    · exact .inr rfl
  refine ⟨rfl, by simp only [TypeOK], by simp only [NamesOK], fun k => ?_, fun k => ?_⟩
  · rcases hc k with h | h <;> rw [h] <;> simp only [namesF, TypeOKF, TypeOK] <;>
      exact ⟨by decide, trivial, trivial⟩
  · rcases hc k with h | h <;> rw [h] <;> simp only [NamesOKF, NamesOK]
    · exact ⟨hx, trivial, trivial⟩
    · exact ⟨hs, trivial, trivial⟩

private theorem goodX1 (miss : Bool) : GoodX cfg miss (.int int32) clsX knownX (.int 1) (.pair (.int 7) .unit) := by
  refine ⟨rfl, ?_, ?_, ?_, ?_, ?_, ?_⟩ <;> simp only [clsX, Val, ValF, Wr, WrF, Fit, FitF]
  · exact ⟨1, rfl, by decide, by decide⟩
  · exact ⟨_, _, rfl, ⟨7, rfl, by decide, by decide⟩, rfl⟩
  · trivial
  · trivial

private theorem goodX2 (miss : Bool) :
    GoodX cfg miss (.int int32) clsX knownX (.int 2) (.pair (.str (b "a<b")) .unit) := by
  refine ⟨rfl, ?_, ?_, ?_, ?_, ?_, ?_⟩ <;> simp only [clsX, Val, ValF, Wr, WrF, Fit, FitF]
  · exact ⟨2, rfl, by decide, by decide⟩
  · exact ⟨_, _, rfl, ⟨_, rfl, by decide⟩, rfl⟩
  · simp [fstOf, bytesOf, Runs, dcd, dc, goodCh, cfg, b, okRun]
  · exact ⟨.inl (by simp [fstOf, bytesOf, b]), trivial⟩

example : ∃ m, parse cfg.sgn DB.empty (packDoc cfg (.struct (.mem (b "a") (.seq (b "e") (.poly (.int int32) clsX knownX))
      (.mem (b "b") (.poly (.int int32) clsX knownX) .nil))) (b "r")
      (.pair (.seq ([some (.int 1, .pair (.int 7) .unit), none, some (.int 2, .pair (.str (b "a<b")) .unit)].map ptrV))
        (.pair (ptrV none) .unit))) = some m ∧
    unpackX true m (.struct (.mem (b "a") (.seq (b "e") (.poly (.int int32) clsX knownX))
      (.mem (b "b") (.poly (.int int32) clsX knownX) .nil))) (b "r") .unit =
      some (.pair (.seq ([some (.int 1, .pair (.int 7) .unit), none, some (.int 2, .pair (.str (b "a<b")) .unit)].map ptrV))
        (.pair (ptrV none) .unit)) := by
  refine C76_xml_vector_partial (.inr (by decide)) ?_ ?_ ?_ ?_ (by decide) hierX _ none ?_ _
  iterate 4 exact xmlName _ (by decide) (by decide) (by decide) (by decide)
  intro q hq k x h
  simp only [List.mem_cons, List.not_mem_nil, or_false] at hq
  rcases hq with rfl | rfl | rfl | rfl
  · cases h
  · cases h; exact goodX1 _
  · cases h
  · cases h; exact goodX2 _

/-- A member called `type` is mixed up with the type. -/
theorem C76_xml_type_member_fails : trip ⟨true, [], false⟩ false (.poly (.int int32) clsT knownX)
    (.ptr (.pair (.int 1) (.pair (.int 2) .unit))) .null =
    some (.ptr (.pair (.int 1) (.pair (.int 1) .unit))) := eqO_eq (by decide +kernel)

end Verif.Xml
