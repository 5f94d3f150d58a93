import Verif.BinStream
import Verif.CodecLemmas
/- C108 -/
namespace Verif.BinStream

/-! ### Specification -/

/-- Values of a type. -/
def C108.Is : BTy → Val → Prop
  | .pod w, .raw l => l.length = w
  | .vec w, .raw l => 0 < w ∧ ∃ n, n < W64 ∧ l.length = n * w
  | .seq t, .seq l => l.length < W64 ∧ ∀ v ∈ l, C108.Is t v
  | .assoc lt multi t, .seq l => l.length < W64 ∧ (∀ v ∈ l, C108.Is t v) ∧ (∀ x y, lt x y = true → lt y x = false) ∧
      l.Pairwise (fun x y => if multi then lt y x = false else lt x y = true)
  | _, _ => False

/-- Containers other than vectors have no containers other than vectors in them. -/
def C108.Flat : BTy → Prop
  | .pod _ | .vec _ => True
  | .seq t | .assoc _ _ t => match t with
    | .pod _ | .vec _ => True
    | _ => False

/-- The lists a list of lists comes back as: each with those before it in front. -/
def C108.heaped (before : List Val) : List (List Val) → List (List Val)
  | [] => []
  | l :: ls => (before ++ l) :: C108.heaped (before ++ l) ls

open C108

private theorem take_app (a rest : Bytes) : take a.length (a ++ rest) = some (a, rest) := by
  simp [take]

private theorem take8 (n : Nat) (rest : Bytes) : take 8 (leB 8 n ++ rest) = some (leB 8 n, rest) := by
  have := take_app (leB 8 n) rest
  rwa [show (leB 8 n).length = 8 from leB_length 8 n] at this

/-- A loop whose turns do not depend on the local variable. -/
private theorem loop_app {f : Val → Bytes → Option (Val × Bytes)} {enc : Val → Bytes} {put : Val → List Val → List Val} {rest : Bytes} :
    ∀ (l : List Val) (v : Val) (o : List Val), (∀ x ∈ l, ∀ d r, f d (enc x ++ r) = some (x, r)) →
      loop f put l.length v o (l.flatMap enc ++ rest) = some (l.foldl (fun o e => put e o) o, rest)
  | [], _, _, _ => rfl
  | x :: l, v, o, h => by
    rw [List.flatMap_cons, List.append_assoc, List.length_cons, loop, h x (.head _)]
    exact loop_app l x (put x o) fun y hy => h y (.tail _ hy)

private theorem prim_read {t : BTy} (ht : match t with | .pod _ | .vec _ => True | _ => False) {v : Val} (h : Is t v) (d : Val) (rest : Bytes) :
    read t d (write t v ++ rest) = some (v, rest) := by
  cases t with
  | seq _ => exact ht.elim
  | assoc _ _ _ => exact ht.elim
  | pod w =>
    cases v with
    | raw l =>
      have h : l.length = w := h
      subst h
      simp [read, write, Val.bytes, take_app]
    | _ => exact h.elim
  | vec w =>
    cases v with
    | raw l =>
      obtain ⟨hw, n, hn, hl⟩ : 0 < w ∧ ∃ n, n < W64 ∧ l.length = n * w := h
      have e : l.length / w = n := by rw [hl]; exact Nat.mul_div_cancel n hw
      simp only [read, write, Val.bytes, e, List.append_assoc, take8, Option.bind_some, leV_leB8 hn]
      rw [if_neg (by simp; omega), ← hl, take_app]
      rfl
    | _ => exact h.elim

private theorem foldl_app : ∀ (l o : List Val), l.foldl (fun o e => o ++ [e]) o = o ++ l
  | [], o => by simp
  | x :: l, o => by simp [foldl_app l]

private theorem foldl_ins {lt : Val → Val → Bool} {multi : Bool} (ha : ∀ x y, lt x y = true → lt y x = false) :
    ∀ (l o : List Val), (o ++ l).Pairwise (fun x y => if multi then lt y x = false else lt x y = true) →
      l.foldl (fun o e => ins lt multi e o) o = o ++ l
  | [], o, _ => by simp
  | x :: l, o, h => by
    have hx : ins lt multi x o = o ++ [x] := by
      rw [List.pairwise_append] at h
      have h := fun y hy => h.2.2 y hy x (.head _)
      cases multi with
      | true => exact insM_end o fun y hy => by simpa using h y hy
      | false => exact insU_end o fun y hy => ⟨by simpa using h y hy, ha _ _ (by simpa using h y hy)⟩
    rw [List.foldl_cons, hx, foldl_ins ha l (o ++ [x]) (by simpa using h)]
    simp

/-- Reading consumes what was written, whatever it makes of it. -/
private theorem consumes : ∀ (t : BTy) (v : Val), Is t v → ∀ (d : Val) (rest : Bytes), ∃ x, read t d (write t v ++ rest) = some (x, rest) := by
  have lp : ∀ (f : Val → Bytes → Option (Val × Bytes)) (enc : Val → Bytes) (put : Val → List Val → List Val) (rest : Bytes) (l : List Val) (v : Val)
      (o : List Val), (∀ x ∈ l, ∀ d r, ∃ y, f d (enc x ++ r) = some (y, r)) → ∃ q, loop f put l.length v o (l.flatMap enc ++ rest) = some (q, rest) := by
    intro f enc put rest l
    induction l with
    | nil => exact fun _ o _ => ⟨o, rfl⟩
    | cons x l ih =>
      intro v o h
      obtain ⟨y, hy⟩ := h x (.head _) v (l.flatMap enc ++ rest)
      rw [List.flatMap_cons, List.append_assoc, List.length_cons, loop, hy]
      exact ih y (put y o) fun z hz => h z (.tail _ hz)
  intro t
  induction t with
  | pod w => exact fun v h d rest => ⟨v, prim_read trivial h d rest⟩
  | vec w => exact fun v h d rest => ⟨v, prim_read trivial h d rest⟩
  | seq t ih =>
    intro v h d rest
    cases v with
    | seq l =>
      obtain ⟨hl, hv⟩ : l.length < W64 ∧ ∀ v ∈ l, Is t v := h
      obtain ⟨q, hq⟩ := lp (read t) (write t) (fun e o => o ++ [e]) rest l (fresh t) d.elems fun x hx d r => ih x (hv x hx) d r
      exact ⟨.seq q, by simp only [read, write, show (Val.seq l).elems = l from rfl, List.append_assoc, take8, Option.bind_some, leV_leB8 hl, hq, Option.map_some]⟩
    | _ => exact h.elim
  | assoc lt multi t ih =>
    intro v h d rest
    cases v with
    | seq l =>
      obtain ⟨hl, hv, _⟩ : l.length < W64 ∧ (∀ v ∈ l, Is t v) ∧ _ := h
      obtain ⟨q, hq⟩ := lp (read t) (write t) (ins lt multi) rest l (fresh t) d.elems fun x hx d r => ih x (hv x hx) d r
      exact ⟨.seq q, by simp only [read, write, show (Val.seq l).elems = l from rfl, List.append_assoc, take8, Option.bind_some, leV_leB8 hl, hq, Option.map_some]⟩
    | _ => exact h.elim

private theorem take_more {n : Nat} {inp a r : Bytes} (h : take n inp = some (a, r)) (more : Bytes) : take n (inp ++ more) = some (a, r ++ more) := by
  unfold take at h ⊢
  split at h
  · cases h
  · rename_i hn
    cases h
    rw [if_neg (by simp; omega), List.take_append_of_le_length (by omega), List.drop_append_of_le_length (by omega)]

/-- More data make no difference. -/
private theorem read_more : ∀ (t : BTy) (d : Val) (inp : Bytes) (x : Val) (r : Bytes), read t d inp = some (x, r) →
    ∀ more, read t d (inp ++ more) = some (x, r ++ more) := by
  have lp : ∀ (f : Val → Bytes → Option (Val × Bytes)) (put : Val → List Val → List Val)
      (_ : ∀ d inp x r, f d inp = some (x, r) → ∀ more, f d (inp ++ more) = some (x, r ++ more)) (n : Nat) (v : Val) (o : List Val) (inp : Bytes)
      (q : List Val) (r : Bytes), loop f put n v o inp = some (q, r) → ∀ more, loop f put n v o (inp ++ more) = some (q, r ++ more) := by
    intro f put hf n
    induction n with
    | zero => intro v o inp q r h more; cases h; rfl
    | succ n ih =>
      intro v o inp q r h more
      rw [loop, Option.bind_eq_some_iff] at h
      obtain ⟨⟨y, s⟩, h1, h2⟩ := h
      rw [loop, hf _ _ _ _ h1]
      exact ih _ _ _ _ _ h2 more
  intro t
  induction t with
  | pod w =>
    intro d inp x r h more
    simp only [read, Option.map_eq_some_iff] at h ⊢
    obtain ⟨⟨a, s⟩, h1, h2⟩ := h
    cases h2
    exact ⟨_, take_more h1 more, rfl⟩
  | vec w =>
    intro d inp x r h more
    simp only [read, Option.bind_eq_some_iff] at h ⊢
    obtain ⟨⟨a, s⟩, h1, h2⟩ := h
    split at h2
    · cases h2
    · rename_i hn
      rw [Option.map_eq_some_iff] at h2
      obtain ⟨⟨a', s'⟩, h2, h3⟩ := h2
      cases h3
      refine ⟨_, take_more h1 more, ?_⟩
      rw [if_neg (by simp at hn ⊢; omega), take_more h2 more]
      rfl
  | seq t ih =>
    intro d inp x r h more
    simp only [read, Option.bind_eq_some_iff, Option.map_eq_some_iff] at h ⊢
    obtain ⟨⟨a, s⟩, h1, ⟨q, s'⟩, h2, h3⟩ := h
    cases h3
    exact ⟨_, take_more h1 more, _, lp _ _ ih _ _ _ _ _ _ h2 more, rfl⟩
  | assoc lt multi t ih =>
    intro d inp x r h more
    simp only [read, Option.bind_eq_some_iff, Option.map_eq_some_iff] at h ⊢
    obtain ⟨⟨a, s⟩, h1, ⟨q, s'⟩, h2, h3⟩ := h
    cases h3
    exact ⟨_, take_more h1 more, _, lp _ _ ih _ _ _ _ _ _ h2 more, rfl⟩

/-! ### Theorems -/

/-- C108: what was written is read again by a default constructed object, and the data behind are left.  Missing: containers of containers, and
objects that have contents, for which it is false. -/
theorem C108_roundtrip_partial {t : BTy} (ht : Flat t) {v : Val} (h : Is t v) (rest : Bytes) : read t (fresh t) (write t v ++ rest) = some (v, rest) := by
  cases t with
  | pod w => exact prim_read trivial h _ rest
  | vec w => exact prim_read trivial h _ rest
  | seq t =>
    cases v with
    | seq l =>
      obtain ⟨hl, hv⟩ : l.length < W64 ∧ ∀ v ∈ l, Is t v := h
      simp only [read, write, Val.elems, List.append_assoc, take8, Option.bind_some, leV_leB8 hl, fresh]
      rw [loop_app l _ _ fun x hx d r => prim_read ht (hv x hx) d r, foldl_app]
      rfl
    | _ => exact h.elim
  | assoc lt multi t =>
    cases v with
    | seq l =>
      obtain ⟨hl, hv, ha, hs⟩ : l.length < W64 ∧ (∀ v ∈ l, Is t v) ∧ _ ∧ _ := h
      simp only [read, write, Val.elems, List.append_assoc, take8, Option.bind_some, leV_leB8 hl, fresh]
      rw [loop_app l _ _ fun x hx d r => prim_read ht (hv x hx) d r, foldl_ins ha l [] (by simpa using hs)]
      rfl
    | _ => exact h.elim

/-- C108: objects that are not containers, and vectors, are read again by any object, whatever it was before. -/
theorem C108_overwrites {t : BTy} (ht : match t with | .pod _ | .vec _ => True | _ => False) {v : Val} (h : Is t v) (d : Val) (rest : Bytes) :
    read t d (write t v ++ rest) = some (v, rest) := prim_read ht h d rest

/-- C108: for any type and any object read into, data cut short are noticed. -/
theorem C108_truncated {t : BTy} {v : Val} (h : Is t v) (d : Val) (k : Nat) (hk : k < (write t v).length) : read t d ((write t v).take k) = none := by
  cases e : read t d ((write t v).take k) with
  | none => rfl
  | some x =>
    have h1 := read_more t d _ x.1 x.2 e ((write t v).drop k)
    rw [List.take_append_drop] at h1
    obtain ⟨y, hy⟩ := consumes t v h d []
    rw [List.append_nil, h1] at hy
    have := congrArg (fun o => (o.map fun p => p.2.length)) hy
    simp at this
    omega

/-- C108 fails for an object that has contents: a list or deque keeps them in front of what is read. -/
theorem C108_fails_contents {t : BTy} (ht : Flat (.seq t)) {l : List Val} (h : Is (.seq t) (.seq l)) (old : List Val) (rest : Bytes) :
    read (.seq t) (.seq old) (write (.seq t) (.seq l) ++ rest) = some (.seq (old ++ l), rest) := by
  obtain ⟨hl, hv⟩ : l.length < W64 ∧ ∀ v ∈ l, Is t v := h
  simp only [read, write, Val.elems, List.append_assoc, take8, Option.bind_some, leV_leB8 hl]
  rw [loop_app l _ _ fun x hx d r => prim_read ht (hv x hx) d r, foldl_app]
  rfl

private theorem mem_insU {lt : Val → Val → Bool} {e y : Val} : ∀ {l : List Val}, y ∈ l → y ∈ insU lt e l
  | x :: l, h => by
    unfold insU
    split
    · exact .tail _ h
    · split
      · rcases List.mem_cons.1 h with rfl | h
        · exact .head _
        · exact .tail _ (mem_insU h)
      · exact h

private theorem mem_insM {lt : Val → Val → Bool} {e y : Val} : ∀ {l : List Val}, y ∈ l → y ∈ insM lt e l
  | x :: l, h => by
    unfold insM
    split
    · exact .tail _ h
    · rcases List.mem_cons.1 h with rfl | h
      · exact .head _
      · exact .tail _ (mem_insM h)

private theorem mem_foldl {lt : Val → Val → Bool} {multi : Bool} {x : Val} : ∀ (l old : List Val), x ∈ old →
    x ∈ l.foldl (fun o e => ins lt multi e o) old
  | [], _, h => h
  | e :: l, old, h => by
    refine mem_foldl l (ins lt multi e old) ?_
    unfold ins
    split
    · exact mem_insM h
    · exact mem_insU h

/-- C108 fails likewise for sets: every element they had stays. -/
theorem C108_fails_set {lt : Val → Val → Bool} {multi : Bool} {t : BTy} (ht : Flat (.seq t)) {l : List Val} (h : Is (.assoc lt multi t) (.seq l))
    (old : List Val) (rest : Bytes) : ∃ l', read (.assoc lt multi t) (.seq old) (write (.assoc lt multi t) (.seq l) ++ rest) = some (.seq l', rest) ∧
      ∀ x ∈ old, x ∈ l' := by
  obtain ⟨hl, hv, _⟩ : l.length < W64 ∧ (∀ v ∈ l, Is t v) ∧ _ := h
  refine ⟨l.foldl (fun o e => ins lt multi e o) old, ?_, ?_⟩
  · simp only [read, write, Val.elems, List.append_assoc, take8, Option.bind_some, leV_leB8 hl]
    rw [loop_app l _ _ fun x hx d r => prim_read ht (hv x hx) d r]
    rfl
  · intro x hx
    exact mem_foldl l old hx

private theorem heap_loop {t : BTy} (ht : Flat (.seq t)) {rest : Bytes} : ∀ (ls : List (List Val)) (before o : List Val),
    (∀ l ∈ ls, Is (.seq t) (.seq l)) →
    loop (read (.seq t)) (fun e o => o ++ [e]) ls.length (.seq before) o ((ls.map Val.seq).flatMap (write (.seq t)) ++ rest) =
      some (o ++ (heaped before ls).map Val.seq, rest)
  | [], _, o, _ => by simp [loop, heaped]
  | l :: ls, before, o, h => by
    rw [List.map_cons, List.flatMap_cons, List.append_assoc, List.length_cons, loop, C108_fails_contents ht (h l (.head _))]
    simp only [Option.bind_some]
    rw [heap_loop ht ls _ _ fun m hm => h m (.tail _ hm)]
    simp [heaped]

/-- C108 fails for lists of lists: each comes back with all those before it in front, -/
theorem C108_fails_nested {t : BTy} (ht : Flat (.seq t)) {ls : List (List Val)} (h : Is (.seq (.seq t)) (.seq (ls.map Val.seq))) (rest : Bytes) :
    read (.seq (.seq t)) (.seq []) (write (.seq (.seq t)) (.seq (ls.map Val.seq)) ++ rest) = some (.seq ((heaped [] ls).map Val.seq), rest) := by
  obtain ⟨hl, hv⟩ : (ls.map Val.seq).length < W64 ∧ ∀ v ∈ ls.map Val.seq, Is (.seq t) v := h
  rw [read, write]
  simp only [Val.elems, List.append_assoc, take8, Option.bind_some, leV_leB8 hl]
  rw [List.length_map, show fresh (.seq t) = .seq [] from rfl, heap_loop ht ls [] [] fun l hl => hv _ (List.mem_map_of_mem hl)]
  simp

private theorem heaped_eq : ∀ (ls : List (List Val)) (before : List Val), before ≠ [] → heaped before ls = ls → ls = []
  | [], _, _, _ => rfl
  | l :: ls, before, hb, h => by
    have := congrArg List.length (List.cons.inj h).1
    simp at this
    exact (hb this).elim

/-- so that it is right only if all of them but the last are empty. -/
theorem C108_nested_iff {t : BTy} (ht : Flat (.seq t)) {ls : List (List Val)} (h : Is (.seq (.seq t)) (.seq (ls.map Val.seq))) (rest : Bytes) :
    read (.seq (.seq t)) (.seq []) (write (.seq (.seq t)) (.seq (ls.map Val.seq)) ++ rest) = some (.seq (ls.map Val.seq), rest) ↔
      ∀ l ∈ ls.dropLast, l = [] := by
  have inj : ∀ (a b : List (List Val)), a.map Val.seq = b.map Val.seq ↔ a = b :=
    fun a b => List.map_inj_right (fun _ _ e => Val.seq.inj e)
  rw [C108_fails_nested ht h]
  simp only [Option.some.injEq, Prod.mk.injEq, Val.seq.injEq, and_true, inj]
  clear h
  induction ls with
  | nil => simp [heaped]
  | cons l ls ih =>
    cases ls with
    | nil => simp [heaped]
    | cons m ls =>
      simp only [heaped, List.nil_append, List.cons.injEq, true_and, List.dropLast_cons_cons, List.forall_mem_cons]
      constructor
      · rintro ⟨h1, h2⟩
        have hl : l = [] := by have := congrArg List.length h1; simp at this; exact this
        subst hl
        refine ⟨rfl, ih.1 ?_⟩
        simp only [heaped, List.nil_append] at h2 ⊢
        rw [h2]
      · rintro ⟨rfl, h⟩
        have := ih.2 h
        simpa [heaped] using this

/-! ### Cases -/

private def byte (n : Nat) : Val := .raw [UInt8.ofNat n]

example : Is (.seq (.seq (.pod 1))) (.seq [.seq [byte 1, byte 2], .seq [byte 3]]) := by
  simp [C108.Is, byte]

example : heaped [] [[byte 1, byte 2], [byte 3]] = [[byte 1, byte 2], [byte 1, byte 2, byte 3]] := rfl

example : Is (.assoc (fun x y => decide (leV x.bytes < leV y.bytes)) false (.vec 1)) (.seq [.raw [1], .raw [1, 2]]) := by
  refine ⟨by decide, ?_, ?_, ?_⟩
  · intro v hv
    simp at hv
    rcases hv with rfl | rfl
    · exact ⟨by decide, 1, by decide, rfl⟩
    · exact ⟨by decide, 2, by decide, rfl⟩
  · intro x y; simp; omega
  · simp [Val.bytes, leV]

example : write (.seq (.pod 1)) (.seq [byte 7]) = [1, 0, 0, 0, 0, 0, 0, 0, 7] := by decide +kernel

end Verif.BinStream
