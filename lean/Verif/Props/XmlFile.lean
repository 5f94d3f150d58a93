import Verif.XmlFile
/-
C127: XML read from a C file or from a stream.
-/
namespace Verif.XmlFile
open Verif.Xml
open EnumKeys (Str isSpace)
open Verif.Json (JV dot tail)

/-! ### Specification -/

/-- No byte 255 behind `/`, `<`, or behind `>` with space in between or none. -/
def C127.Apart (w : Str) : Prop :=
  ∀ p c s q, w = p ++ c :: s ++ 255 :: q → (∀ x ∈ s, isSpace x = true) → c ≠ 62 ∧ (s = [] → c ≠ 47 ∧ c ≠ 60)

mutual
/-- No byte 255 in names, CDATA and members of type signed or unsigned char. -/
def C127.Clean : XT → JV → Prop
  | .byte, v => 255 ∉ bytesOf v
  | .cdata, v => 255 ∉ bytesOf v
  | .seq e t, v => 255 ∉ e ∧ ∀ x ∈ elemsOf v, C127.Clean t x
  | .assoc _ e t, v => 255 ∉ e ∧ ∀ x ∈ elemsOf v, C127.Clean t x
  | .struct fs, v => C127.CleanF fs v
  | .ptr t, .ptr v => C127.Clean t v
  | .ref t, .ptr v => C127.Clean t v
  | .poly kt cls _, .ptr (.pair k x) => C127.Clean kt k ∧ C127.CleanF (cls k) x
  | _, _ => True
def C127.CleanF : Fs → JV → Prop
  | .nil, _ => True
  | .mem n t fs, v => 255 ∉ n ∧ C127.Clean t (fstOf v) ∧ C127.CleanF fs (sndOf v)
  | .base t fs, v => C127.Clean t (fstOf v) ∧ C127.CleanF fs (sndOf v)
end

open C127

/-! ### Reading -/

/-- What has been read ends in what the mode says. -/
private def Inv : Mode → Str → Prop
  | .slash _, u => ∃ p, u = p ++ [47]
  | .lt _, u => ∃ p, u = p ++ [60]
  | .ws _, u => ∃ p s, u = p ++ 62 :: s ∧ ∀ x ∈ s, isSpace x = true
  | _, _ => True

private theorem snd_of {a : List Str × Mode} {t : List Str} {m : Mode} (h : some a = some (t, m)) : a.2 = m := by rw [Option.some.inj h]

private theorem inv_text (tok u : Str) (c : UInt8) : Inv (stepText tok c).2 (u ++ [c]) := by
  unfold stepText
  split
  · trivial
  split
  · trivial
  split
  · trivial
  split
  · rename_i h; exact ⟨u, by rw [h]⟩
  split
  · rename_i h; exact ⟨u, by rw [h]⟩
  split <;> trivial

private theorem inv_step {sgn : Bool} {m m' : Mode} {u : Str} {c : UInt8} {t : List Str} (h : step sgn m c = some (t, m'))
    (hi : Inv m u) : Inv m' (u ++ [c]) := by
  cases m <;> simp only [step] at h
  case text tok => rw [← snd_of h]; exact inv_text _ _ _
  case slash tok =>
    split at h
    · cases h; trivial
    · rw [← snd_of h]; exact inv_text _ _ _
  case lt tok =>
    split at h
    · cases h; trivial
    split at h
    · cases h; trivial
    split at h
    · cases h; trivial
    · cases h; exact inv_text _ _ _
  case ent tok name =>
    split at h
    · cases he : entity sgn name <;> rw [he] at h <;> cases h; trivial
    · cases h; trivial
  case str tok term =>
    split at h
    · cases h; trivial
    split at h <;> (cases h; trivial)
  case strEnt tok term name =>
    split at h
    · cases he : entity sgn name <;> rw [he] at h <;> cases h; trivial
    · cases h; trivial
  case bang tok leadin =>
    split at h
    · cases h; trivial
    split at h
    · cases h; unfold afterLead; split <;> trivial
    · cases h; trivial
  case cdata tok leadin =>
    rw [← snd_of h]
    unfold stepCdata
    repeat' split
    all_goals trivial
  case comment tok level inStr =>
    cases h
    unfold stepComment
    split
    · trivial
    split
    · trivial
    split
    · trivial
    split
    · rename_i hc
      split
      · exact ⟨u, [], by rw [hc], by simp⟩
      · trivial
    · trivial
  case ws tok =>
    split at h
    · rename_i hs
      cases h
      obtain ⟨p, s, rfl, h2⟩ := hi
      refine ⟨p, s ++ [c], by simp, ?_⟩
      intro x hx
      rcases List.mem_append.1 hx with hx | hx
      · exact h2 x hx
      · simp at hx; rw [hx]; exact hs
    · rw [← snd_of h]; exact inv_text _ _ _

private theorem step_eq {sgn : Bool} {m : Mode} {u : Str} {c : UInt8} {w : Str} (hi : Inv m u) (ha : Apart (u ++ c :: w)) :
    stepF sgn m c = step sgn m c := by
  unfold stepF putBack
  split
  · rfl
  · rename_i hp
    have hc : c = 255 := by
      by_cases h : sgn = true ∧ c = 255
      · exact h.2
      · rw [if_neg h] at hp; cases hp
    subst hc
    cases m <;> try rfl
    · obtain ⟨p, rfl⟩ := hi
      exact absurd rfl ((ha p 47 [] w (by simp) (by simp)).2 rfl).1
    · obtain ⟨p, rfl⟩ := hi
      exact absurd rfl ((ha p 60 [] w (by simp) (by simp)).2 rfl).2
    · obtain ⟨p, s, rfl, hs⟩ := hi
      exact absurd rfl (ha p 62 s w (by simp) hs).1

private theorem run_eq (sgn : Bool) : ∀ (w u : Str) (m : Mode), Inv m u → Apart (u ++ w) → runF sgn m w = run sgn m w
  | [], _, _, _, _ => rfl
  | c :: w, u, m, hi, ha => by
    rw [runF, run, step_eq hi ha]
    cases h : step sgn m c with
    | none => rfl
    | some r =>
      obtain ⟨t, m'⟩ := r
      have := run_eq sgn w (u ++ [c]) m' (inv_step h hi) (by simpa using ha)
      simp only [this]

private theorem run_unsigned : ∀ (w : Str) (m : Mode), runF false m w = run false m w
  | [], _ => rfl
  | c :: w, m => by
    have : stepF false m c = step false m c := by simp [stepF, putBack]
    rw [runF, run, this]
    cases step false m c with
    | none => rfl
    | some r => simp only [run_unsigned w]

/-- C127, partial: a text without the byte 255 behind `/`, `<` or `>` is read alike from a file and from a stream, by errors too. -/
theorem C127_same_partial (sgn : Bool) (m : DB) (w : Str) (h : Apart w) : parseF sgn m w = parse sgn m w := by
  simp only [parseF, parse, run_eq sgn w [] _ (show Inv (.text []) [] from trivial) h]

example : Apart [60, 97, 62, 120, 255, 60, 47, 97, 62] := by
  intro p c s q h hs
  have h1 : p ++ c :: s = [60, 97, 62, 120] := by
    have h2 := congrArg (List.takeWhile (· != 255)) h
    have h3 : (255 : UInt8) ∉ p ++ c :: s := by
      intro hm
      obtain ⟨a, b, e⟩ := List.append_of_mem hm
      rw [e] at h
      have := congrArg (List.count 255) h
      simp at this
      omega
    have h4 : List.takeWhile (· != 255) (p ++ c :: s ++ 255 :: q) = p ++ c :: s := by
      rw [List.takeWhile_append_of_pos (by intro x hx; simp; rintro rfl; exact h3 hx)]; simp
    rw [h4] at h2
    exact h2.symm
  have h2 : (120 : UInt8) ∈ c :: s := by
    have := congrArg List.getLast? h1
    rw [List.getLast?_append, List.getLast?_cons] at this
    simp only [Option.some_or] at this
    rw [show [(60 : UInt8), 97, 62, 120].getLast? = some 120 from rfl] at this
    exact List.mem_of_getLast? (by rw [List.getLast?_cons]; exact this)
  rcases List.mem_cons.1 h2 with rfl | h2
  · exact ⟨by decide, fun _ => ⟨by decide, by decide⟩⟩
  · exact absurd (hs _ h2) (by decide)

/-- C127, partial: any text, if `char` is unsigned. -/
theorem C127_unsigned_partial (m : DB) (w : Str) : parseF false m w = parse false m w := by
  simp only [parseF, parse, run_unsigned]

/-! ### What has been packed -/

private theorem tail_clean {d : Str} (h : (255 : UInt8) ∉ d) : (255 : UInt8) ∉ tail d := by
  unfold tail
  intro h2
  exact h (List.mem_reverse.1 ((List.takeWhile_sublist _).subset (List.mem_reverse.1 h2)))

private theorem pre_clean (g : Cfg) (d : Str) : (255 : UInt8) ∉ pre g d := by
  unfold pre; split
  · intro h; exact absurd (List.eq_of_mem_replicate h) (by decide)
  · simp

private theorem post_clean (g : Cfg) : (255 : UInt8) ∉ post g := by
  unfold post; split <;> decide

private theorem xmlns_clean {g : Cfg} (d : Str) (h : (255 : UInt8) ∉ g.schema) : (255 : UInt8) ∉ xmlnsAttr g d := by
  unfold xmlnsAttr; split
  · simp [h]
  · simp

private theorem dec_clean (n : Nat) : (255 : UInt8) ∉ dec n := fun h => absurd (dec_digits h) (by decide)

private theorem decI_clean (i : Int) : (255 : UInt8) ∉ decI i := by
  cases i with
  | ofNat n => exact dec_clean n
  | negSucc n => simp [decI, dec_clean]

private theorem quote_clean (sgn : Bool) (s : Str) : (255 : UInt8) ∉ quote sgn s := by
  unfold quote
  intro h
  obtain ⟨l, hl, h⟩ := List.mem_flatten.1 h
  obtain ⟨c, -, rfl⟩ := List.mem_map.1 hl
  revert h
  unfold quote1
  repeat' split
  all_goals try decide
  · simp only [pad4, List.mem_append]
    rintro ((h | h | h) | h)
    · revert h; decide
    · exact absurd (List.eq_of_mem_replicate h) (by decide)
    · exact decI_clean _ h
    · revert h; decide
  · rename_i h
    simp only [List.mem_singleton]
    rintro rfl
    exact h (by decide)

private theorem leaf_clean {g : Cfg} {d txt : Str} {p : PK} (hp : (255 : UInt8) ∉ p.out) (hd : (255 : UInt8) ∉ d) (ht : (255 : UInt8) ∉ txt) :
    (255 : UInt8) ∉ (leaf g d txt p).out := by
  simp [leaf, hp, ht, pre_clean, post_clean, tail_clean hd]

private theorem tag_clean {g : Cfg} {d : Str} {f : PK → PK} {p : PK} (hs : (255 : UInt8) ∉ g.schema) (hp : (255 : UInt8) ∉ p.out)
    (hd : (255 : UInt8) ∉ d) (hf : ∀ p : PK, (255 : UInt8) ∉ p.out → (255 : UInt8) ∉ (f p).out) : (255 : UInt8) ∉ (withTag g d f p).out := by
  unfold withTag
  split
  · have := hf ⟨p.out ++ pre g d ++ [60] ++ tail d ++ xmlnsAttr g d ++ [62] ++ post g, level d⟩
      (by simp [hp, pre_clean, post_clean, tail_clean hd, xmlns_clean d hs])
    simp only [List.mem_append, this, pre_clean, post_clean, tail_clean hd]; decide
  · exact hf p hp

private theorem packL_clean {f : JV → PK → PK} : ∀ (l : List JV) (p : PK), (255 : UInt8) ∉ p.out →
    (∀ x ∈ l, ∀ p : PK, (255 : UInt8) ∉ p.out → (255 : UInt8) ∉ (f x p).out) → (255 : UInt8) ∉ (packL f l p).out
  | [], _, h, _ => h
  | x :: l, p, h, hf => packL_clean l (f x p) (hf x (by simp) p h) fun y hy => hf y (by simp [hy])

private theorem dotted {d e : Str} (hd : (255 : UInt8) ∉ d) (he : (255 : UInt8) ∉ e) : (255 : UInt8) ∉ d ++ dot :: e := by
  simp [hd, he, dot]

mutual
private theorem pack_clean {g : Cfg} (hs : (255 : UInt8) ∉ g.schema) : ∀ (t : XT) (d : Str) (v : JV) (p : PK), Clean t v → (255 : UInt8) ∉ d →
    (255 : UInt8) ∉ p.out → (255 : UInt8) ∉ (packX g t d v p).out
  | .bool, d, v, p, _, hd, hp => by
    simp only [packX]; exact leaf_clean hp hd (by split <;> decide)
  | .int _, d, v, p, _, hd, hp => by simp only [packX]; exact leaf_clean hp hd (decI_clean _)
  | .chr, d, v, p, _, hd, hp => by simp only [packX]; exact leaf_clean hp hd (quote_clean _ _)
  | .byte, d, v, p, h, hd, hp => by simp only [packX]; simp only [Clean] at h; exact leaf_clean hp hd h
  | .str, d, v, p, _, hd, hp => by simp only [packX]; exact leaf_clean hp hd (quote_clean _ _)
  | .cdata, d, v, p, h, hd, hp => by
    simp only [packX]; simp only [Clean] at h
    exact tag_clean hs hp hd fun p hp => by simp [hp, cdataText, cdataLead, h]
  | .seq e t, d, v, p, h, hd, hp => by
    simp only [packX]; simp only [Clean] at h
    refine tag_clean hs hp hd fun p hp => packL_clean _ _ hp fun x hx p hp => ?_
    split
    · exact tag_clean hs hp (dotted hd h.1) fun p hp => pack_clean hs t _ x p (h.2 x hx) (dotted hd h.1) hp
    · exact pack_clean hs t _ x p (h.2 x hx) (dotted hd h.1) hp
  | .assoc _ e t, d, v, p, h, hd, hp => by
    simp only [packX]; simp only [Clean] at h
    refine tag_clean hs hp hd fun p hp => packL_clean _ _ hp fun x hx p hp => ?_
    split
    · exact tag_clean hs hp (dotted hd h.1) fun p hp => pack_clean hs t _ x p (h.2 x hx) (dotted hd h.1) hp
    · exact pack_clean hs t _ x p (h.2 x hx) (dotted hd h.1) hp
  | .struct fs, d, v, p, h, hd, hp => by
    simp only [packX]; simp only [Clean] at h
    exact tag_clean hs hp hd fun p hp => packF_clean hs fs d v p h hd hp
  | .ptr t, d, v, p, h, hd, hp => by
    cases v <;> simp only [packX] <;> simp only [Clean] at h <;> first | exact hp | exact pack_clean hs t d _ p h hd hp
  | .ref t, d, v, p, h, hd, hp => by
    cases v <;> simp only [packX] <;> simp only [Clean] at h <;> refine tag_clean hs hp hd fun p hp => ?_ <;>
      first | exact hp | exact pack_clean hs t d _ p h hd hp
  | .poly kt cls kn, d, v, p, h, hd, hp => by
    match v with
    | .ptr (.pair k x) =>
      simp only [packX]; simp only [Clean] at h
      exact tag_clean hs hp hd fun p hp => packF_clean hs (cls k) d x _ h.2 hd (pack_clean hs kt _ k p h.1 (dotted hd (by decide)) hp)
    | .ptr .null | .ptr (.bool _) | .ptr (.int _) | .ptr (.str _) | .ptr (.seq _) | .ptr (.ptr _) | .ptr .unit | .ptr (.real _) | .ptr (.kv _) | .real _ | .kv _ => simpa [packX] using hp
    | .null | .bool _ | .int _ | .str _ | .seq _ | .unit | .pair _ _ => simpa [packX] using hp
private theorem packF_clean {g : Cfg} (hs : (255 : UInt8) ∉ g.schema) : ∀ (fs : Fs) (d : Str) (v : JV) (p : PK), CleanF fs v → (255 : UInt8) ∉ d →
    (255 : UInt8) ∉ p.out → (255 : UInt8) ∉ (packF g fs d v p).out
  | .nil, _, _, _, _, _, hp => by simpa [packF] using hp
  | .mem n t fs, d, v, p, h, hd, hp => by
    simp only [packF]; simp only [CleanF] at h
    exact packF_clean hs fs d _ _ h.2.2 hd (pack_clean hs t _ _ p h.2.1 (dotted hd h.1) hp)
  | .base t fs, d, v, p, h, hd, hp => by
    simp only [packF]; simp only [CleanF] at h
    exact packF_clean hs fs d _ _ h.2 hd (pack_clean hs t _ _ p h.1 hd hp)
end

/-- C127, partial: what has been packed without that byte in names and CDATA is read alike; strings may have it. -/
theorem C127_packed_partial (g : Cfg) (t : XT) (n : Str) (v : JV) (m : DB) (hs : 255 ∉ g.schema) (hn : 255 ∉ n) (hc : Clean t v) :
    parseF g.sgn m (packDoc g t n v) = parse g.sgn m (packDoc g t n v) := by
  apply C127_same_partial
  intro p c s q h
  have := pack_clean hs t n v ⟨[], 0⟩ hc hn (by simp)
  rw [packDoc] at h
  rw [h] at this
  simp at this

/-- C127, partial: a value written as XML and read from a file is restored, as from a stream. -/
theorem C127_roundtrip_partial {g : Cfg} {t : XT} {n : Str} {v old : JV} {miss : Bool}
    (hs : SchemaOK g.schema) (hn : XmlName n) (hN : NamesOK t) (ht : TypeOK t) (hv : Val g t v)
    (hnn : NotNull t v) (hw : Wr g okRun t v) (hf : Fit miss t v old) (hs' : 255 ∉ g.schema) (hn' : 255 ∉ n) (hc : Clean t v) :
    ∃ m, parseF g.sgn DB.empty (packDoc g t n v) = some m ∧ unpackX miss m t n old = some v := by
  rw [C127_packed_partial g t n v _ hs' hn' hc]
  exact C27_roundtrip_partial hs hn hN ht hv hnn hw hf

/-- A string `/<&`, written as XML, comes through a file. -/
example : Clean .str (.str [47, 60, 38]) ∧
    (parseF true DB.empty (packDoc ⟨true, [], false⟩ .str [97] (.str [47, 60, 38]))).bind (getText true · [97]) = some (some [47, 60, 38]) :=
  ⟨trivial, by decide +kernel⟩

/-- C127 fails: the byte 255 behind a slash in a text is lost when read from a file. -/
theorem C127_fails_slash : (parse true DB.empty [60, 97, 62, 47, 255, 60, 47, 97, 62]).bind (getText true · [97]) = some (some [47, 255]) ∧
    (parseF true DB.empty [60, 97, 62, 47, 255, 60, 47, 97, 62]).bind (getText true · [97]) = some (some [47]) := ⟨by decide +kernel, by decide +kernel⟩

/-- C127 fails: so is one behind a comment. -/
theorem C127_fails_comment : (parse true DB.empty [60, 97, 62, 60, 63, 62, 32, 255, 60, 47, 97, 62]).bind (getText true · [97]) = some (some [255]) ∧
    (parseF true DB.empty [60, 97, 62, 60, 63, 62, 32, 255, 60, 47, 97, 62]).bind (getText true · [97]) ≠ some (some [255]) := ⟨by decide +kernel, by decide +kernel⟩

/-- C127 fails: an element whose name begins with it gets another name, or a document is refused. -/
theorem C127_fails_name : (parse true DB.empty [60, 255, 62, 120, 60, 47, 255, 62]).bind (getText true · [255]) = some (some [120]) ∧
    parseF true DB.empty [60, 255, 62, 120, 60, 47, 255, 62] = none := ⟨by decide +kernel, by decide +kernel⟩

/-- C127 fails: the element gets the name without that byte, and is found there instead. -/
theorem C127_fails_other : (parseF true DB.empty [60, 255, 97, 62, 120, 60, 47, 97, 62]).bind (getText true · [97]) = some (some [120]) ∧
    (parse true DB.empty [60, 255, 97, 62, 120, 60, 47, 97, 62]).bind (getText true · [97]) = none ∧
    (parse true DB.empty [60, 255, 97, 62, 120, 60, 47, 97, 62]).bind (getText true · [255, 97]) = some (some [120]) :=
  ⟨by decide +kernel, by decide +kernel, by decide +kernel⟩

/-- C127 fails: only that byte is lost, and the text goes on behind it. -/
theorem C127_fails_behind : (parse true DB.empty [60, 97, 62, 60, 63, 62, 32, 255, 120, 60, 47, 97, 62]).bind (getText true · [97]) = some (some [255, 120]) ∧
    (parseF true DB.empty [60, 97, 62, 60, 63, 62, 32, 255, 120, 60, 47, 97, 62]).bind (getText true · [97]) = some (some [120]) :=
  ⟨by decide +kernel, by decide +kernel⟩

end Verif.XmlFile
