import Verif.XmlSkm
import Verif.Props.XmlMore
/-
C117: StringKeyMap as XML.
-/
namespace Verif.Xml
open OMap EnumKeys
open Verif.Json (JV dot tail)
open XmlP

/-! ### Writing: as a class with a member for every key -/

private def fsOf (t : XT) : List (Str × JV) → Fs
  | [] => .nil
  | e :: l => .mem e.1 t (fsOf t l)

private def valOf : List (Str × JV) → JV
  | [] => .unit
  | e :: l => .pair e.2 (valOf l)

private def oldOf (t : XT) : List (Str × JV) → JV
  | [] => .unit
  | _ :: l => .pair (dflt t) (oldOf t l)

private theorem packKV_F (g : Cfg) (t : XT) (hp : isPtr t = false) (d : Str) : ∀ l : List (Str × JV),
    packKV g t d l = packF g (fsOf t l) d (valOf l)
  | [] => by funext p; simp [packKV, fsOf, packF]
  | e :: l => by
    funext p
    simp only [packKV, fsOf, packF, valOf, fstOf, sndOf, hp, Bool.false_eq_true, if_false]
    rw [packKV_F g t hp d l]

private theorem packSkm_struct (g : Cfg) (t : XT) (hp : isPtr t = false) (n : Str) (l : List (Str × JV)) :
    packSkmDoc g t n l = packDoc g (.struct (fsOf t l)) n (valOf l) := by
  simp only [packSkmDoc, packDoc, packSkm, packX, packKV_F g t hp]

private theorem names_fsOf (t : XT) : ∀ l, namesF (fsOf t l) = l.map (·.1)
  | [] => rfl
  | e :: l => by simp only [fsOf, namesF, List.map_cons, names_fsOf t l]

private theorem member {miss : Bool} {m : DB} {t : XT} {d : Str} : ∀ l : List (Str × JV),
    unpackF miss m (fsOf t l) d (oldOf t l) = some (valOf l) →
    ∀ e ∈ l, unpackX miss m t (d ++ dot :: e.1) (dflt t) = some e.2
  | [], _ => by simp
  | e :: l, h => by
    simp only [fsOf, oldOf, valOf, unpackF, fstOf, sndOf] at h
    cases h1 : unpackX miss m t (d ++ dot :: e.1) (dflt t) with
    | none => rw [h1] at h; simp at h
    | some x =>
      cases h2 : unpackF miss m (fsOf t l) d (oldOf t l) with
      | none => rw [h1, h2] at h; simp at h
      | some y =>
        rw [h1, h2] at h
        simp at h
        intro e' he'
        rcases List.mem_cons.1 he' with rfl | he'
        · rw [h1, h.1]
        · exact member l (by rw [h2, h.2]) e' he'

/-- C117, partial: a document is written in which each value is found in the element named by its key, whatever the order; keys
that can be names of elements, and values as for C27.  It is partial: this is not how a StringKeyMap is read, see
`C117_fails_read`. -/
theorem C117_written_partial {g : Cfg} {t : XT} {n : Str} {l : List (Str × JV)} {miss : Bool} (hs : SchemaOK g.schema)
    (hn : XmlName n) (hN : NamesOK t) (ht : TypeOK t) (hp : isPtr t = false) (hk : (l.map (·.1)).Nodup)
    (hl : ∀ e ∈ l, XmlName e.1 ∧ Val g t e.2 ∧ Wr g okRun t e.2 ∧ Fit miss t e.2 (dflt t)) :
    ∃ m, parse g.sgn DB.empty (packSkmDoc g t n l) = some m
    ∧ ∀ e ∈ l, unpackX miss m t (n ++ dot :: e.1) (dflt t) = some e.2 := by
  have hN' : ∀ l : List (Str × JV), (∀ e ∈ l, XmlName e.1) → NamesOKF (fsOf t l) := by
    intro l
    induction l with
    | nil => intro _; trivial
    | cons e l ih => intro h; exact ⟨h e (by simp), hN, ih fun e he => h e (by simp [he])⟩
  have hT' : ∀ l : List (Str × JV), TypeOKF (fsOf t l) := by
    intro l
    induction l with
    | nil => trivial
    | cons e l ih => exact ⟨ht, ih⟩
  have hV' : ∀ l : List (Str × JV), (∀ e ∈ l, Val g t e.2) → ValF g (fsOf t l) (valOf l) := by
    intro l
    induction l with
    | nil => intro _; simp [fsOf, valOf, ValF]
    | cons e l ih =>
      intro h
      simp only [fsOf, valOf, ValF]
      exact ⟨_, _, rfl, h e (by simp), ih fun e he => h e (by simp [he])⟩
  have hW' : ∀ l : List (Str × JV), (∀ e ∈ l, Wr g okRun t e.2) → WrF g okRun (fsOf t l) (valOf l) := by
    intro l
    induction l with
    | nil => intro _; simp [fsOf, valOf, WrF]
    | cons e l ih =>
      intro h
      simp only [fsOf, valOf, WrF, fstOf, sndOf]
      exact ⟨h e (by simp), ih fun e he => h e (by simp [he])⟩
  have hF' : ∀ l : List (Str × JV), (∀ e ∈ l, Fit miss t e.2 (dflt t)) → FitF miss (fsOf t l) (valOf l) (oldOf t l) := by
    intro l
    induction l with
    | nil => intro _; simp [fsOf, valOf, FitF]
    | cons e l ih =>
      intro h
      simp only [fsOf, valOf, oldOf, FitF, fstOf, sndOf]
      exact ⟨h e (by simp), ih fun e he => h e (by simp [he])⟩
  obtain ⟨m, h1, h2⟩ := roundtrip (g := g) (t := .struct (fsOf t l)) (n := n) (v := valOf l) (old := oldOf t l) (miss := miss)
    hs hn (by simp only [NamesOK]; exact hN' l fun e he => (hl e he).1)
    (by simp only [TypeOK]; exact ⟨by rw [names_fsOf]; exact hk, hT' l⟩)
    (by simp only [Val]; exact hV' l fun e he => (hl e he).2.1) trivial
    (by simp only [Wr]; exact hW' l fun e he => (hl e he).2.2.1)
    (by simp only [Fit]; exact hF' l fun e he => (hl e he).2.2.2)
  refine ⟨m, by rw [packSkm_struct g t hp]; exact h1, ?_⟩
  simp only [unpackX] at h2
  exact member l h2

/-! ### Reading -/

private theorem mput_keys {α : Type} {P : Str → Prop} {k : Str} {v : α} : ∀ {l : List (Str × α)}, P k →
    (∀ e ∈ l, P e.1) → ∀ e ∈ mput strLt k v l, P e.1
  | [], hk, _ => by simpa [mput] using hk
  | x :: l, hk, h => by
    intro e he
    unfold mput at he
    split at he
    · rcases List.mem_cons.1 he with rfl | he
      · exact hk
      · exact h e he
    · split at he
      · rcases List.mem_cons.1 he with rfl | he
        · exact h x (by simp)
        · exact mput_keys hk (fun e he => h e (by simp [he])) e he
      · rcases List.mem_cons.1 he with rfl | he
        · first | exact hk | exact h x (by simp)
        · exact h e (by simp [he])

private def Hashed (m : DB) : Prop := ∀ e ∈ m.con, hash ∈ e.1

private theorem setCon_hashed {m : DB} {k v : Str} (h : Hashed m) (hk : hash ∈ k) : Hashed (setCon m k v) :=
  mput_keys (P := fun k => hash ∈ k) hk h

private theorem attrs_hashed {si : Str} (hsi : hash ∈ si) : ∀ (f : Nat) (m : DB) (l : List Str) (r : DB × Bool × List Str),
    Hashed m → attrs si f m l = some r → Hashed r.1
  | 0, _, _, _, _, h => by simp [attrs] at h
  | _ + 1, _, [], _, _, h => by simp [attrs] at h
  | f + 1, m, t :: l, r, hm, h => by
    unfold attrs at h
    split at h
    · simp at h
    split at h
    · simp at h; rw [← h]; exact hm
    split at h
    · simp at h; rw [← h]; exact hm
    split at h
    · exact attrs_hashed hsi f m l r hm h
    split at h
    · simp at h
    · split at h
      · simp at h
      · exact attrs_hashed hsi f _ _ r (setCon_hashed hm (List.mem_append_left _ hsi)) h

private theorem idx_hash (p : Str) (i : Nat) : hash ∈ idx p i := by simp [idx]

private theorem parse_hashed : ∀ f : Nat,
    (∀ (scope : Str) (m : DB) (l : List Str) (r : DB × List Str), Hashed m → elem f scope m l = some r → Hashed r.1)
    ∧ (∀ (si acc : Str) (m : DB) (l : List Str) (r : Str × DB × List Str), hash ∈ si → Hashed m →
        content f si acc m l = some r → Hashed r.2.1)
  | 0 => ⟨fun _ _ _ _ _ h => by simp [elem] at h, fun _ _ _ _ _ _ _ h => by simp [content] at h⟩
  | f + 1 => by
    obtain ⟨ih1, ih2⟩ := parse_hashed f
    constructor
    · intro scope m l r hm h
      unfold elem at h
      simp only at h
      split at h
      · simp at h
      · rename_i m1 l1 ha
        have := attrs_hashed (idx_hash _ _) _ _ _ _ (show Hashed (bump m scope) from hm) ha
        simp at h; rw [← h]; exact this
      · rename_i m1 l1 ha
        have hm1 := attrs_hashed (idx_hash _ _) _ _ _ _ (show Hashed (bump m scope) from hm) ha
        split at h
        · simp at h
        · rename_i txt m2 l2 hc
          have hm2 := ih2 _ _ _ _ _ (idx_hash _ _) hm1 hc
          split at h
          · simp at h
          · simp at h
            rw [← h]
            simp only
            split
            · exact hm2
            · exact setCon_hashed hm2 (idx_hash _ _)
    · intro si acc m l r hsi hm h
      cases l with
      | nil => simp [content] at h
      | cons t l =>
        unfold content at h
        split at h
        · simp at h
        split at h
        · simp at h; rw [← h]; exact hm
        split at h
        · split at h
          · simp at h
          · split at h
            · simp at h
            · split at h
              · simp at h
              · rename_i he
                exact ih2 _ _ _ _ _ hsi (ih1 _ _ _ _ hm he) h
        · exact ih2 _ _ _ _ _ hsi hm h

private theorem toks_hashed {m : DB} {fin : Bool} : ∀ {l : List Str} {r : DB}, Hashed m → parseToks m fin l = some r → Hashed r
  | [], r, hm, h => by
    unfold parseToks at h
    split at h
    · simp at h; rw [← h]; exact hm
    · simp at h
  | t :: l, r, hm, h => by
    unfold parseToks at h
    split at h
    · exact toks_hashed hm h
    split at h
    · simp at h; rw [← h]; exact hm
    split at h
    · split at h
      · simp at h
      · split at h
        · simp at h
        · rw [Option.map_eq_some_iff] at h
          obtain ⟨x, hx, rfl⟩ := h
          exact (parse_hashed _).1 _ _ _ _ hm hx
    · simp at h

/-- C117 fails for reading: whatever document is parsed, a StringKeyMap that is the root or a member, of classes to any depth, is
left as it was, and nothing is reported missing. -/
theorem C117_fails_read (sgn : Bool) (w d : Str) (m : DB) (hw : parse sgn DB.empty w = some m) (hd : hash ∉ d) (miss : Bool) (t : XT)
    (old : List (Str × JV)) : unpackSkm miss m t d old = some old := by
  have hh : Hashed m := toks_hashed (by simp [Hashed, DB.empty]) hw
  have : tokens m d = [] := by
    unfold tokens
    cases h : m.con.dropWhile fun e => strLt e.1 d with
    | nil => rfl
    | cons e l =>
      have h1 : strLt e.1 d = false := by
        have := List.head_dropWhile_not (l := m.con) (fun e : Str × Str => strLt e.1 d) (by rw [h]; simp)
        simpa [h] using this
      have hm : e ∈ m.con := (List.dropWhile_sublist _).subset (by rw [h]; simp)
      cases h2 : strLt d e.1 with
      | true => simp [h2]
      | false => exact absurd (strOrd.tri _ _ h1 h2 ▸ hh e hm) hd
  unfold unpackSkm
  rw [this]; rfl

private theorem skmKey_dot (a c : Str) (hc : dot ∉ c) : skmKey (a ++ dot :: c) = dot :: c := by
  unfold skmKey
  rw [if_pos (by simp)]
  have : ((a ++ dot :: c).reverse.takeWhile (· != dot)) = c.reverse := by
    simp only [List.reverse_append, List.reverse_cons, List.append_assoc, List.singleton_append]
    rw [List.takeWhile_append_of_pos]
    · simp
    · intro x hx
      have : x ≠ dot := fun e => hc (e ▸ List.mem_reverse.1 hx)
      simpa using this
  rw [this, List.reverse_reverse]

private theorem tokens_mem {d s : Str} : ∀ {l : List (Str × Str)}, Sorted strLt l → (d, s) ∈ l →
    ((l.dropWhile fun e => strLt e.1 d).takeWhile fun e => !strLt d e.1) = [(d, s)]
  | [], _, h => by simp at h
  | (k, v) :: l, hs, h => by
    rcases List.mem_cons.1 h with h | h
    · obtain ⟨rfl, rfl⟩ := Prod.mk.inj h
      have h0 : strLt d d = false := strOrd.irrefl d
      simp only [List.dropWhile_cons, h0, Bool.false_eq_true, if_false, List.takeWhile_cons, Bool.not_false, if_true]
      cases l with
      | nil => rfl
      | cons y l =>
        have := hs.1 y (by simp)
        simp [this]
    · have : strLt k d = true := hs.1 _ h
      simp only [List.dropWhile_cons, this, if_true]
      exact tokens_mem hs.2 h

/-- What is read when the text stored under the name of the map itself is found, which takes a document whose elements have dots in
their names, or a name of the map as in a container: a single value, with the key beginning with a dot. -/
theorem C117_fails_key (miss : Bool) (m : DB) (t : XT) (a c s : Str) (hm : Sorted strLt m.con) (hc : dot ∉ c)
    (h : (a ++ dot :: c, s) ∈ m.con) :
    unpackSkm miss m t (a ++ dot :: c) [] = (unpackX miss m t (a ++ dot :: c) (dflt t)).map fun v => [(dot :: c, v)] := by
  unfold unpackSkm tokens
  rw [tokens_mem hm h]
  simp only [unpackKV, skmKey_dot a c hc]
  rw [show (mfind strLt (dot :: c) ([] : List (Str × JV))) = none from rfl]
  simp only [Option.getD_none]
  cases unpackX miss m t (a ++ dot :: c) (dflt t) <;> rfl

deriving instance DecidableEq for DB

/-- Such a document, for the first element of a vector of maps. -/
example : ∃ m, parse true DB.empty (b "<r.v.e>5</r.v.e>") = some m
    ∧ unpackSkm false m (.int int32) (b "r.v.e#0") [] = some [(b ".e#0", .int 0)] := by
  refine ⟨⟨[(b "r.v.e#0", b "5")], [(b "r.v.e", 1)]⟩, by decide +kernel, ?_⟩
  have := C117_fails_key false ⟨[(b "r.v.e#0", b "5")], [(b "r.v.e", 1)]⟩ (.int int32) (b "r.v") (b "e#0") (b "5")
    (by simp [Sorted]) (by decide) (by decide)
  refine this.trans ?_
  rw [show unpackX false ⟨[(b "r.v.e#0", b "5")], [(b "r.v.e", 1)]⟩ (.int int32) (b "r.v" ++ dot :: b "e#0") (dflt (.int int32))
    = some (.int 0) from eqO_eq (by decide +kernel)]
  rfl

/-- C117 fails: no map with entries, written and read into an empty map, comes back. -/
theorem C117_fails (g : Cfg) (t : XT) (n : Str) (l : List (Str × JV)) (hl : l ≠ []) (hn : hash ∉ n) (miss : Bool) (m : DB)
    (hm : parse g.sgn DB.empty (packSkmDoc g t n l) = some m) :
    unpackSkm miss m t n [] = some [] ∧ ([] : List (Str × JV)) ≠ l :=
  ⟨C117_fails_read _ _ _ _ hm hn _ _ _, hl.symm⟩

/-- C117 fails to write keys with a dot: only what follows it is written, here of numbers. -/
theorem C117_fails_dot (sgn : Bool) (schema : Str) (u : Under) (n a c : Str) (i : Int) (hc : dot ∉ c) :
    packSkmDoc ⟨sgn, schema, false⟩ (.int u) n [(a ++ dot :: c, .int i)]
      = packSkmDoc ⟨sgn, schema, false⟩ (.int u) n [(c, .int i)] := by
  have ht : ∀ x : Str, tail (x ++ dot :: c) = c := fun x => tail_dot hc
  have e : n ++ dot :: (a ++ dot :: c) = (n ++ dot :: a) ++ dot :: c := by simp
  simp only [packSkmDoc, packSkm, packKV, isPtr, Bool.false_eq_true, if_false, packX, leaf, pre, post, e, ht]

/-- C117 fails to write keys with a blank: the document is refused. -/
theorem C117_fails_blank : packSkmDoc ⟨true, [], false⟩ (.int int32) (b "r") [(b "a b", .int 1)] = b "<r><a b>1</a b></r>"
    ∧ ∀ sgn, (parse sgn DB.empty (b "<r><a b>1</a b></r>")).isNone = true :=
  ⟨by decide +kernel, fun sgn => by cases sgn <;> decide +kernel⟩

example : packSkmDoc ⟨true, [], false⟩ (.int int32) (b "r") [(b "a", .int 1), (b "b", .int 2)]
    = b "<r><a>1</a><b>2</b></r>" := by decide +kernel

example : ∃ m, parse true DB.empty (packSkmDoc ⟨true, [], false⟩ (.int int32) (b "r") [(b "a", .int 1), (b "b", .int 2)]) = some m
    ∧ unpackX false m (.int int32) (b "r" ++ dot :: b "b") (.int 0) = some (.int 2)
    ∧ unpackSkm false m (.int int32) (b "r") [(b "z", .int 7)] = some [(b "z", .int 7)] := by
  obtain ⟨m, h1, h2⟩ := C117_written_partial (g := ⟨true, [], false⟩) (t := .int int32) (n := b "r")
    (l := [(b "a", .int 1), (b "b", .int 2)]) (miss := false) (.inl rfl)
    (xmlName _ (by decide) (by decide) (by decide) (by decide)) trivial trivial rfl (by decide) (by
      intro e he
      simp at he
      rcases he with rfl | rfl
      · exact ⟨xmlName _ (by decide) (by decide) (by decide) (by decide), ⟨1, rfl, by simp [InRange, int32, Width.modulus]⟩, trivial, trivial⟩
      · exact ⟨xmlName _ (by decide) (by decide) (by decide) (by decide), ⟨2, rfl, by simp [InRange, int32, Width.modulus]⟩, trivial, trivial⟩)
  exact ⟨m, h1, h2 (b "b", .int 2) (by simp), C117_fails_read _ _ _ _ h1 (by decide) _ _ _⟩

end Verif.Xml
