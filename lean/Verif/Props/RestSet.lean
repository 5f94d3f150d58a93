import Verif.RestSet
import Verif.Props.RestMap
/-
C94: sets behind the REST interface and Python.  C95: containers replaced as a whole.
-/
namespace Verif.Rest
open OMap
open Verif.Json (J R Lib dot)

/-! ### What is expected of a set -/

/-- Requests, with the key that is meant. -/
inductive C94.Req (K : Type)
  | add (w : Str) (k : K)
  | look (w : Str) (k : K)
  | insert (j : J) (k : K)
  | erase (j : J) (k : K)
  | size
  | keys
  | replace (l : List (J × K))
  | pyLen
  | pyHas (j : J) (k : K)
  | pyInsert (j : J) (k : K)
  | pyErase (j : J) (k : K)
  | pyKeys

/-- How they are made: a path and an argument, or a statement in Python. -/
inductive C94.Act
  | rest (path : Str) (args : J)
  | py (o : SOp)

def C94.Req.act {K : Type} : C94.Req K → C94.Act
  | .add w _ => .rest (b ".@elem." ++ w) (.bool true)
  | .look w _ => .rest (b ".@elem." ++ w) .null
  | .insert j _ => .rest (b ".@insert") j
  | .erase j _ => .rest (b ".@erase") j
  | .size => .rest (b ".@size") .null
  | .keys => .rest (b ".@keys") .null
  | .replace l => .rest [] (.arr [.arr (l.map (·.1))])
  | .pyLen => .py .len
  | .pyHas j _ => .py (.contains j)
  | .pyInsert j _ => .py (.insert j)
  | .pyErase j _ => .py (.erase j)
  | .pyKeys => .py .keys

/-- The text is that key. -/
def C94.Req.Ok {K : Type} (ky : Key K) : C94.Req K → Prop
  | .add w k => C62.Plain w ∧ ky.raw w = .ok k
  | .look w k => C62.Plain w ∧ ky.raw w = .ok k
  | .insert j k => ky.conv j = .ok k
  | .erase j k => ky.conv j = .ok k
  | .replace l => ∀ e ∈ l, ky.read e.1 = .ok e.2
  | .pyHas j k => ky.conv j = .ok k
  | .pyInsert j k => ky.conv j = .ok k
  | .pyErase j k => ky.conv j = .ok k
  | _ => True

/-- Answers. -/
inductive C94.Ans (K : Type)
  | done
  | elem (k : K)
  | num (n : Nat)
  | truth (x : Bool)
  | keys (l : List K)
  | exception

/-- A set as a list without repetitions. -/
def C94.put {K : Type} [DecidableEq K] (xs : List K) (k : K) : List K := if k ∈ xs then xs else xs ++ [k]

def C94.does {K : Type} [DecidableEq K] (xs : List K) : C94.Req K → C94.Ans K × List K
  | .add _ k => (.elem k, C94.put xs k)
  | .look _ k => (if k ∈ xs then .elem k else .exception, xs)
  | .insert _ k => if k ∈ xs then (.exception, xs) else (.done, C94.put xs k)
  | .erase _ k => (.done, xs.filter (· ≠ k))
  | .size => (.num xs.length, xs)
  | .keys => (.keys xs, xs)
  | .replace l => (.done, (l.map (·.2)).foldl C94.put [])
  | .pyLen => (.num xs.length, xs)
  | .pyHas _ k => (.truth (k ∈ xs), xs)
  | .pyInsert _ k => if k ∈ xs then (.exception, xs) else (.done, C94.put xs k)
  | .pyErase _ k => (.done, xs.filter (· ≠ k))
  | .pyKeys => (.keys xs, xs)

def C94.runs {K : Type} [DecidableEq K] : List K → List (C94.Req K) → List (C94.Ans K) × List K
  | xs, [] => ([], xs)
  | xs, o :: os => let r := C94.does xs o; let q := C94.runs r.2 os; (r.1 :: q.1, q.2)

/-- What comes back for an answer; keys come in any order. -/
inductive C94.Says {K : Type} : C94.Ans K → SO K ⊕ SRes K → Prop
  | done : C94.Says .done (.inl .self)
  | elem (k) : C94.Says (.elem k) (.inl (.value k))
  | num (n) : C94.Says (.num n) (.inl (.size n))
  | keys (l l' : List K) : l.Perm l' → C94.Says (.keys l) (.inl (.keys l'))
  | exception : C94.Says .exception (.inl .throw)
  | pyDone : C94.Says .done (.inr .none)
  | pyNum (n) : C94.Says (.num n) (.inr (.num n))
  | pyTruth (x) : C94.Says (.truth x) (.inr (.truth x))
  | pyKeys (l l' : List K) : l.Perm l' → C94.Says (.keys l) (.inr (.list l'))
  | pyException : C94.Says .exception (.inr .error)

inductive C94.All {K : Type} : List (C94.Ans K) → List (SO K ⊕ SRes K) → Prop
  | nil : C94.All [] []
  | cons {a r as rs} : C94.Says a r → C94.All as rs → C94.All (a :: as) (r :: rs)

/-- The requests carried out. -/
def C94.step {K : Type} (lib : Lib) (ky : Key K) (dflt : K) (m : S K) : C94.Act → (SO K ⊕ SRes K) × S K
  | .rest p j => let r := setReq lib ky dflt m p j; (.inl r.1, r.2)
  | .py o => let r := setPy ky m o; (.inr r.1, r.2)

def C94.run {K : Type} (lib : Lib) (ky : Key K) (dflt : K) : S K → List C94.Act → List (SO K ⊕ SRes K) × S K
  | m, [] => ([], m)
  | m, a :: as => let r := C94.step lib ky dflt m a; let q := C94.run lib ky dflt r.2 as; (r.1 :: q.1, q.2)

open C94 C62

/-! ### The correspondence -/

/-- The set has just these elements. -/
structure C94.Has {K : Type} (ky : Key K) (m : S K) (xs : List K) : Prop where
  sorted : Sorted ky.lt m
  nodup : xs.Nodup
  mem : ∀ k, (mfind ky.lt k m).isSome = true ↔ k ∈ xs

section
variable {K : Type} [DecidableEq K] {ky : Key K}

private theorem Has.perm (ho : StrictOrd ky.lt) {m : S K} {xs : List K} (h : Has ky m xs) : xs.Perm (m.map (·.1)) := by
  rw [List.perm_ext_iff_of_nodup h.nodup (h.sorted.nodup ho)]
  intro k
  rw [← h.mem]
  cases hf : mfind ky.lt k m with
  | none => have := (mfind_none_iff ho h.sorted k).1 hf; simp [this]
  | some v =>
    have := (mfind_iff_mem ho h.sorted k v).1 hf
    simp only [Option.isSome_some, true_iff]
    exact List.mem_map.2 ⟨_, this, rfl⟩

private theorem Has.len (ho : StrictOrd ky.lt) {m : S K} {xs : List K} (h : Has ky m xs) : m.length = xs.length := by
  have := (Has.perm ho h).length_eq
  simpa using this.symm

private theorem mem_put (xs : List K) (k q : K) : q ∈ put xs k ↔ q = k ∨ q ∈ xs := by
  simp only [put]
  split
  · rename_i h
    constructor
    · exact .inr
    · rintro (rfl | h2)
      · exact h
      · exact h2
  · simp [or_comm]

private theorem Has.put (ho : StrictOrd ky.lt) {m : S K} {xs : List K} (h : Has ky m xs) (k : K) :
    Has ky (minsert ky.lt k () m) (put xs k) := by
  refine ⟨sorted_minsert ho k () m h.sorted, ?_, ?_⟩
  · simp only [C94.put]
    split
    · exact h.nodup
    · rename_i hk
      rw [List.nodup_append]
      refine ⟨h.nodup, by simp, ?_⟩
      intro a ha c hc
      rw [List.mem_singleton.1 hc]
      rintro rfl
      exact hk ha
  · intro q
    rw [mfind_minsert ho, mem_put]
    by_cases hq : q = k
    · simp [hq]
    · simp [hq, h.mem]

private theorem Has.del (ho : StrictOrd ky.lt) {m : S K} {xs : List K} (h : Has ky m xs) (k : K) :
    Has ky (merase ky.lt k m) (xs.filter (· ≠ k)) := by
  refine ⟨sorted_merase k m h.sorted, h.nodup.filter _, ?_⟩
  intro q
  rw [mfind_merase ho k m h.sorted]
  by_cases hq : q = k
  · simp [hq]
  · simp [hq, h.mem]

private theorem fill_has (ho : StrictOrd ky.lt) : ∀ (l : List (J × K)), (∀ e ∈ l, ky.read e.1 = .ok e.2) →
    ∀ (m : S K) (xs : List K), Has ky m xs →
    (fill ky (l.map (·.1)) m).1 = .self ∧ Has ky (fill ky (l.map (·.1)) m).2 ((l.map (·.2)).foldl C94.put xs)
  | [], _, m, xs, h => ⟨rfl, h⟩
  | e :: l, hl, m, xs, h => by
    simp only [List.map_cons, fill, hl e (by simp), List.foldl_cons]
    exact fill_has ho l (fun e' he' => hl e' (by simp [he'])) _ _ (Has.put ho h e.2)

end

private theorem elem_prefix (w : Str) : b ".@elem" <+: b ".@elem." ++ w := ⟨b "." ++ w, rfl⟩

private theorem elem_ne (w : Str) : ¬ b ".@elem." ++ w = [] := by
  intro h; exact absurd (congrArg List.length h) (by simp [show (b ".@elem.").length = 7 from rfl])

private theorem not_nothrow (w : Str) : ¬ b ".@elemNoThrow" <+: b ".@elem." ++ w := by
  intro hp
  rw [show b ".@elemNoThrow" = b ".@elem" ++ (78 :: b "oThrow") from rfl,
    show b ".@elem." ++ w = b ".@elem" ++ (46 :: w) from rfl, List.prefix_append_right_inj,
    List.cons_prefix_cons] at hp
  exact absurd hp.1 (by decide)

/-- What a request on an element comes to. -/
private theorem setReq_elem {K : Type} (lib : Lib) (ky : Key K) (dflt : K) (m : S K) (w : Str) (hw : Plain w) (k : K)
    (hk : ky.raw w = .ok k) (args : J) :
    setReq lib ky dflt m (b ".@elem." ++ w) args =
      match (match args with | .null => ((.ok (), m) : R Unit × S K) | j => assignSet lib ky m k j) with
      | (.ok _, m) => (match mfind ky.lt k m with | none => .throw | some _ => .value k, m)
      | (.throw _, m) => (.throw, m)
      | (.ub, m) => (.ub, m) := by
  have h := pathKey_plain ky w [] hw (.inl rfl)
  rw [List.append_nil, hk] at h
  simp only [R.map] at h
  unfold setReq
  rw [if_neg (elem_ne w), if_pos (elem_prefix w), h]
  have key : ∀ (r : R Unit × S K) (p : Prop) [Decidable p], p →
      (match r with
      | (.ok _, m) =>
        match mfind ky.lt k m with
        | none => if b ".@elemNoThrow" <+: b ".@elem." ++ w then (SO.copy dflt ([] : Str), m) else (.throw, m)
        | some _ => if p then (.value k, m) else (.copy k [], m)
      | (.throw _, m) => (.throw, m)
      | (.ub, m) => (.ub, m)) =
      (match r with
      | (.ok _, m) => (match mfind ky.lt k m with | none => .throw | some _ => .value k, m)
      | (.throw _, m) => (.throw, m)
      | (.ub, m) => (.ub, m)) := by
    rintro ⟨r, m⟩ p _ hp
    cases r with
    | ok u => simp only [not_nothrow w, if_false, hp, if_true]; cases mfind ky.lt k m <;> rfl
    | throw e => rfl
    | ub => rfl
  cases args with
  | null => exact key (.ok (), m) (([] : Str) = []) rfl
  | _ => exact key (assignSet lib ky m k _) (([] : Str) = []) rfl

/-- Every program gets the answers a set gives, and leaves the same elements. -/
theorem C94_program_partial {K : Type} [DecidableEq K] (lib : Lib) (ky : Key K) (ho : StrictOrd ky.lt) (dflt : K) :
    ∀ (os : List (Req K)) (m : S K) (xs : List K), (∀ o ∈ os, o.Ok ky) → Has ky m xs →
    All (runs xs os).1 (run lib ky dflt m (os.map Req.act)).1 ∧
      Has ky (run lib ky dflt m (os.map Req.act)).2 (runs xs os).2
  | [], m, xs, _, h => ⟨.nil, h⟩
  | o :: os, m, xs, hos, h => by
    have hok := hos o (by simp)
    have hf : ∀ k, k ∈ xs → ∃ v, mfind ky.lt k m = some v := fun k hk =>
      Option.isSome_iff_exists.1 ((h.mem k).2 hk)
    have hn : ∀ k, k ∉ xs → mfind ky.lt k m = none := fun k hk => by
      cases hq : mfind ky.lt k m with
      | none => rfl
      | some v => exact absurd ((h.mem k).1 (by simp [hq])) hk
    have ins : ∀ (j : J) (k : K), ky.conv j = .ok k →
        setInsert ky m j = (if k ∈ xs then .throw else .self, if k ∈ xs then m else minsert ky.lt k () m) := by
      intro j k hk
      simp only [setInsert, hk]
      by_cases hx : k ∈ xs
      · simp [(h.mem k).2 hx, hx]
      · simp [hn k hx, hx]
    have key : Says (does xs o).1 (step lib ky dflt m o.act).1 ∧ Has ky (step lib ky dflt m o.act).2 (does xs o).2 := by
      cases o with
      | add w k =>
        simp only [Req.act, step, setReq_elem lib ky dflt m w hok.1 k hok.2, assignSet, readBool, does]
        have hs : mfind ky.lt k (minsert ky.lt k () m) = some () := by rw [mfind_minsert ho, if_pos rfl]
        simp only [hs]
        exact ⟨.elem k, Has.put ho h k⟩
      | look w k =>
        simp only [Req.act, step, setReq_elem lib ky dflt m w hok.1 k hok.2, does]
        refine ⟨?_, h⟩
        by_cases hx : k ∈ xs
        · obtain ⟨v, hv⟩ := hf k hx
          simp only [hv, hx, if_true]; exact .elem k
        · simp only [hn k hx, hx, if_false]; exact .exception
      | insert j k =>
        have hs : setReq lib ky dflt m (b ".@insert") j = setInsert ky m j := by
          unfold setReq; rw [if_neg (by decide), if_neg (by decide), if_pos (by decide)]
        simp only [Req.act, step, hs, ins j k hok, does]
        by_cases hx : k ∈ xs
        · simp only [hx, if_true]; exact ⟨.exception, h⟩
        · simp only [hx, if_false]; exact ⟨.done, Has.put ho h k⟩
      | erase j k =>
        have hok : ky.conv j = .ok k := hok
        have hs : setReq lib ky dflt m (b ".@erase") j = setErase ky m j := by
          unfold setReq; rw [if_neg (by decide), if_neg (by decide), if_neg (by decide), if_pos (by decide)]
        simp only [Req.act, step, hs, setErase, hok, does]
        exact ⟨.done, Has.del ho h k⟩
      | size =>
        have hs : setReq lib ky dflt m (b ".@size") .null = (.size m.length, m) := by
          unfold setReq; rw [if_neg (by decide), if_neg (by decide), if_neg (by decide), if_neg (by decide), if_pos (by decide)]
        simp only [Req.act, step, hs, does, Has.len ho h]
        exact ⟨.num _, h⟩
      | keys =>
        have hs : setReq lib ky dflt m (b ".@keys") .null = (.keys (m.map (·.1)), m) := by
          unfold setReq; rw [if_neg (by decide), if_neg (by decide), if_neg (by decide), if_neg (by decide), if_neg (by decide),
            if_pos (by decide)]
        simp only [Req.act, step, hs, does]
        exact ⟨.keys _ _ (Has.perm ho h), h⟩
      | replace l =>
        have h0 : Has ky ([] : S K) [] := ⟨trivial, by simp, by simp [mfind]⟩
        obtain ⟨h1, h2⟩ := fill_has ho l hok [] [] h0
        have hs : setReq lib ky dflt m [] (.arr [.arr (l.map (·.1))]) = fill ky (l.map (·.1)) [] := by
          rw [setReq, if_pos rfl]; rfl
        simp only [Req.act, step, hs, does, h1]
        exact ⟨.done, h2⟩
      | pyLen => simp only [Req.act, step, setPy, does, Has.len ho h]; exact ⟨.pyNum _, h⟩
      | pyHas j k =>
        have hok : ky.conv j = .ok k := hok
        simp only [Req.act, step, setPy, hok, does]
        refine ⟨?_, h⟩
        have : (mfind ky.lt k m).isSome = decide (k ∈ xs) := by
          rw [Bool.eq_iff_iff, h.mem]; simp
        rw [this]; exact .pyTruth _
      | pyInsert j k =>
        simp only [Req.act, step, setPy, ins j k hok, does]
        by_cases hx : k ∈ xs
        · simp only [hx, if_true, SO.py]; exact ⟨.pyException, h⟩
        · simp only [hx, if_false, SO.py]; exact ⟨.pyDone, Has.put ho h k⟩
      | pyErase j k =>
        have hok : ky.conv j = .ok k := hok
        simp only [Req.act, step, setPy, setErase, hok, does, SO.py]
        exact ⟨.pyDone, Has.del ho h k⟩
      | pyKeys => simp only [Req.act, step, setPy, does]; exact ⟨.pyKeys _ _ (Has.perm ho h), h⟩
    obtain ⟨h1, h2⟩ := C94_program_partial lib ky ho dflt os _ _ (fun o' ho' => hos o' (by simp [ho'])) key.2
    simp only [List.map_cons, run, runs]
    exact ⟨.cons key.1 h1, h2⟩

/-- Any set, however filled, is one of those. -/
theorem C94_has {K : Type} (ky : Key K) (ho : StrictOrd ky.lt) (m : S K) (hm : Sorted ky.lt m) :
    Has ky m (m.map (·.1)) := by
  refine ⟨hm, hm.nodup ho, fun k => ?_⟩
  cases hf : mfind ky.lt k m with
  | none => have := (mfind_none_iff ho hm k).1 hf; simp [this]
  | some v =>
    have := (mfind_iff_mem ho hm k v).1 hf
    simp only [Option.isSome_some, true_iff]
    exact List.mem_map.2 ⟨_, this, rfl⟩

private abbrev exKey : Key Str :=
  ⟨strLt, fun j => match j with | .str s => .ok s | _ => .throw .lib,
   fun j => match j with | .str s => .ok s | _ => .throw .lib, .ok, fun _ => .throw .lib⟩

private theorem plain_k : Plain (b "k") :=
  ⟨by decide, by decide, by intro c hc; simp only [show (b "k").head? = some 107 from rfl, Option.some.injEq] at hc; subst hc; decide⟩

private def exOps : List (Req Str) :=
  [.add (b "k") (b "k"), .insert (.str (b "k")) (b "k"), .pyInsert (.str (b "a")) (b "a"), .erase (.str (b "k")) (b "k"),
   .look (b "k") (b "k"), .pyHas (.str (b "a")) (b "a"), .keys]

example (lib : Lib) : Has exKey (run lib exKey [] [(b "x", ())] (exOps.map Req.act)).2 [b "x", b "a"] := by
  have := (C94_program_partial lib exKey strOrd [] exOps [(b "x", ())] [b "x"]
    (by
      intro o ho
      simp only [exOps, List.mem_cons, List.not_mem_nil, or_false] at ho
      rcases ho with rfl | rfl | rfl | rfl | rfl | rfl | rfl
      · exact ⟨plain_k, rfl⟩
      · rfl
      · rfl
      · rfl
      · exact ⟨plain_k, rfl⟩
      · rfl
      · trivial)
    (C94_has exKey strOrd _ (by simp [Sorted]))).2
  exact this

/-- Giving `false` for an element takes it out, and then always throws, even if it was there. -/
theorem C94_fails_false {K : Type} [DecidableEq K] (lib : Lib) (ky : Key K) (ho : StrictOrd ky.lt) (dflt : K) (m : S K)
    (hm : Sorted ky.lt m) (w : Str) (hw : Plain w) (k : K) (hk : ky.raw w = .ok k) :
    setReq lib ky dflt m (b ".@elem." ++ w) (.bool false) = (.throw, merase ky.lt k m) := by
  have : mfind ky.lt k (merase ky.lt k m) = none := by rw [mfind_merase ho k m hm, if_pos rfl]
  simp only [setReq_elem lib ky dflt m w hw k hk, assignSet, readBool, this]

example (lib : Lib) : setReq lib exKey [] [(b "k", ()), (b "x", ())] (b ".@elem." ++ b "k") (.bool false)
    = (.throw, [(b "x", ())]) :=
  C94_fails_false lib exKey strOrd [] [(b "k", ()), (b "x", ())] (by simp [Sorted]; decide) (b "k") plain_k (b "k") rfl

/-- Giving the truth value in an array, as arguments are otherwise given, throws, or what happens depends on a variable
without a value; the set is not changed. -/
theorem C94_fails_list {K : Type} (lib : Lib) (ky : Key K) (dflt : K) (m : S K) (w : Str) (hw : Plain w) (k : K)
    (hk : ky.raw w = .ok k) (x : Bool) :
    setReq lib ky dflt m (b ".@elem." ++ w) (.arr [.bool x]) = (.throw, m) ∨
    setReq lib ky dflt m (b ".@elem." ++ w) (.arr [.bool x]) = (.ub, m) := by
  simp only [setReq_elem lib ky dflt m w hw k hk, assignSet, readBool]
  by_cases h : lib.mm.isPack = true
  · right; simp [h]
  · left; simp [h]

example (lib : Lib) : (setReq lib exKey [] [] (b ".@elem." ++ b "k") (.arr [.bool true])).2 = [] :=
  (C94_fails_list lib exKey [] [] (b "k") plain_k (b "k") rfl true).elim (congrArg Prod.snd) (congrArg Prod.snd)

/-- In Python, reading an element of a set puts it there. -/
theorem C94_fails_get {K : Type} [DecidableEq K] (ky : Key K) (ho : StrictOrd ky.lt) (m : S K) (j : J) (k : K)
    (hk : ky.read j = .ok k) :
    (setPy ky m (.get j)).1 = .elem k ∧ (mfind ky.lt k (setPy ky m (.get j)).2).isSome = true := by
  simp only [setPy, hk, true_and, mfind_minsert ho, if_pos]
  simp

example : (mfind strLt (b "k") (setPy exKey [(b "x", ())] (.get (.str (b "k")))).2).isSome = true :=
  (C94_fails_get exKey strOrd [(b "x", ())] (.str (b "k")) (b "k") rfl).2

/-- And so does setting it, to False as well. -/
theorem C94_fails_set {K : Type} [DecidableEq K] (ky : Key K) (ho : StrictOrd ky.lt) (m : S K) (j v : J) (k : K)
    (hk : ky.read j = .ok k) :
    (setPy ky m (.set j v)).1 = .none ∧ (mfind ky.lt k (setPy ky m (.set j v)).2).isSome = true := by
  simp only [setPy, hk, true_and, mfind_minsert ho, if_pos]
  simp

example : setPy exKey [] (.set (.str (b "k")) (.bool false)) = (.none, [(b "k", ())]) := by decide

/-! ### Whole containers -/

/-- What a set is shown as, given back, is the set again, whatever there was. -/
theorem C95_set_partial {K : Type} [DecidableEq K] (lib : Lib) (ky : Key K) (ho : StrictOrd ky.lt) (dflt : K) (shk : K → J)
    (hs : ∀ k, ky.read (shk k) = .ok k) (m m' : S K) (hm : Sorted ky.lt m) :
    setReq lib ky dflt m' [] (.arr [showSet shk m]) = (.self, m) := by
  have h0 : Has ky ([] : S K) [] := ⟨trivial, by simp, by simp [mfind]⟩
  have hl : (m.map fun e => (shk e.1, e.1)).map (·.1) = m.map fun e => shk e.1 := by simp
  have hl2 : (m.map fun e => (shk e.1, e.1)).map (·.2) = m.map (·.1) := by simp
  obtain ⟨h1, h2⟩ := fill_has ho (m.map fun e => (shk e.1, e.1))
    (by intro e he; obtain ⟨x, _, rfl⟩ := List.mem_map.1 he; exact hs _) [] [] h0
  rw [hl] at h1 h2
  rw [hl2] at h2
  have hr : setReq lib ky dflt m' [] (.arr [showSet shk m]) = fill ky (m.map fun e => shk e.1) [] := by
    rw [setReq, if_pos rfl]; rfl
  rw [hr]
  have hfold : ∀ (l xs : List K) (q : K), q ∈ l.foldl C94.put xs ↔ q ∈ xs ∨ q ∈ l := by
    intro l
    induction l with
    | nil => simp
    | cons a l ih => intro xs q; simp only [List.foldl_cons, ih, mem_put, List.mem_cons]; grind
  have hsub : ∀ q (o : Option Unit), (o.isSome = true ↔ (mfind ky.lt q m).isSome = true) → o = mfind ky.lt q m := by
    intro q o h
    cases o <;> cases hq : mfind ky.lt q m <;> simp_all
  refine Prod.ext h1 (Sorted.ext ho h2.sorted hm fun q => hsub q _ ?_)
  rw [h2.mem, hfold, (C94_has ky ho m hm).mem]
  simp

example (lib : Lib) : setReq lib exKey [] [(b "z", ())] [] (.arr [.arr [.str (b "k"), .str (b "x")]])
    = (.self, [(b "k", ()), (b "x", ())]) :=
  C95_set_partial lib exKey strOrd [] .str (fun _ => rfl) [(b "k", ()), (b "x", ())] [(b "z", ())] (by simp [Sorted]; decide)

private theorem decAll_show {E : Type} (el : El E) (sh : E → J) (hs : ∀ v x, el.dec (sh v) x = (true, v)) :
    ∀ (ys xs : List E), xs.length = ys.length → decAll el (ys.map sh) xs = (true, ys)
  | [], [], _ => rfl
  | y :: ys, x :: xs, h => by
    have := decAll_show el sh hs ys xs (by simpa using h)
    simp [decAll, hs, this]

/-- The same for a sequence that can be resized. -/
theorem C95_seq_partial {E : Type} (el : El E) (sh : E → J) (hs : ∀ v x, el.dec (sh v) x = (true, v)) (ty : SeqTy)
    (hi : ty.ins = true) (hc : ty.cst = false) (xs ys : List E) :
    seqRest el ty [] (.arr [.arr (ys.map sh)]) xs = (.self, ys) := by
  have hl : (xs.take ys.length ++ List.replicate (ys.length - xs.length) el.dflt).length = ys.length := by
    simp; omega
  have := decAll_show el sh hs ys _ hl
  simp [seqRest, hc, convSeq, hi, this]

/-- A map without items is cleared by what it is shown as. -/
theorem C95_map_empty_partial {K V : Type} (ky : Key K) (dk : K) (el : El V) (shk : K → J) (shw : V → J) (m : List (K × V)) :
    mapWhole ky dk el m (.arr [showMap shk shw []]) = (true, []) := rfl

private abbrev exEl : El Nat := ⟨0, fun j x => match j with | .int i => (true, i.toNat) | _ => (false, x),
  fun j x => match j with | .int i => (true, i.toNat) | _ => (false, x)⟩

example : seqRest exEl ⟨true, true, false⟩ [] (.arr [.arr ([4, 5].map fun n : Nat => .int n)]) [1, 2, 3] = (.self, [4, 5]) :=
  C95_seq_partial exEl (fun n : Nat => .int n) (fun v x => by simp) ⟨true, true, false⟩ rfl rfl [1, 2, 3] [4, 5]

/-- A map: given back what it is shown as, with at least one item, it has one item, a value-initialised key with the
first value; whatever there was. -/
theorem C95_fails_map {K V : Type} [DecidableEq K] (ky : Key K) (ho : StrictOrd ky.lt) (dk : K) (el : El V) (shk : K → J)
    (shw : V → J) (hs : ∀ v, el.dec (shw v) el.dflt = (true, v)) (e : K × V) (m m' : List (K × V)) :
    mapWhole ky dk el m' (.arr [showMap shk shw (e :: m)]) = (true, [(dk, e.2)]) := by
  have hp : ∀ x : K × V, readPair dk el (.obj [(b "first", shk x.1), (b "second", shw x.2)]) = (true, dk, x.2) := by
    intro x
    have : Json.find (.obj [(b "first", shk x.1), (b "second", shw x.2)]) (b ".second") = .ok (shw x.2) := by
      rfl
    simp [readPair, this, hs]
  have hfill : ∀ (l : List (K × V)) (v : V), fillMap ky dk el
      (l.map fun x => .obj [(b "first", shk x.1), (b "second", shw x.2)]) [(dk, v)] = (true, [(dk, v)]) := by
    intro l v
    induction l with
    | nil => rfl
    | cons x l ih =>
      have hi : minsert ky.lt dk x.2 [(dk, v)] = [(dk, v)] := by simp [minsert, ho.irrefl]
      simp only [List.map_cons, fillMap, hp, if_true, hi, ih]
  show fillMap ky dk el _ [] = _
  simp only [List.map_cons, fillMap, hp, if_true]
  exact hfill m e.2

example : mapWhole exKey [] exEl [] (.arr [showMap .str (fun n : Nat => .int n) [(b "k", 1), (b "x", 2)]])
    = (true, [([], 1)]) :=
  C95_fails_map exKey strOrd [] exEl .str (fun n : Nat => .int n) (fun v => by simp) (b "k", 1) [(b "x", 2)] []

/-- An array in which the first element cannot be read: an exception, and what the set had is lost. -/
theorem C95_fails_bad {K : Type} (lib : Lib) (ky : Key K) (dflt : K) (m : S K) (j : J) (js : List J) (e : Json.Err)
    (hj : ky.read j = .throw e) : setReq lib ky dflt m [] (.arr [.arr (j :: js)]) = (.throw, []) := by
  rw [setReq, if_pos rfl]
  simp only [convSet, fill, hj]

example (lib : Lib) : setReq lib exKey [] [(b "k", ())] [] (.arr [.arr [.null]]) = (.throw, []) :=
  C95_fails_bad lib exKey [] [(b "k", ())] .null [] .lib rfl

/-- Anything but an array in an array is accepted, and does nothing: the set and the map stay as they were. -/
theorem C95_fails_other {K V : Type} (lib : Lib) (ky : Key K) (dk : K) (el : El V) (m : S K) (m' : List (K × V)) (j : J)
    (hj : ∀ l, j ≠ .arr l) :
    setReq lib ky dk m [] j = (.self, m) ∧ setReq lib ky dk m [] (.arr [j]) = (.self, m) ∧
    mapWhole ky dk el m' j = (true, m') ∧ mapWhole ky dk el m' (.arr [j]) = (true, m') := by
  cases j with
  | arr l => exact absurd rfl (hj l)
  | _ => refine ⟨?_, ?_, rfl, rfl⟩ <;> simp [setReq, convSet]

/-- C94: asking for an element without saying which gives the set itself, and changes nothing. -/
theorem C94_no_key {K : Type} (lib : Lib) (ky : Key K) (dflt : K) (m : S K) (w : Str) (hw : ∀ c ∈ w, c ≠ dot) (args : J) :
    setReq lib ky dflt m (b ".@elem" ++ w) args = (.self, m) := by
  have hf : findDotFrom (b ".@elem" ++ w) 1 = none := by
    have h : ∀ c ∈ b "@elem" ++ w, c ≠ dot := by
      intro c hc
      rcases List.mem_append.1 hc with hc | hc
      · intro e; subst e; revert hc; decide
      · exact hw c hc
    have : (b ".@elem" ++ w).drop 1 = b "@elem" ++ w := rfl
    simp only [findDotFrom, this]
    rw [List.findIdx?_eq_none_iff.2 (fun c hc => by simpa using h c hc)]
  have hp : b ".@elem" <+: b ".@elem" ++ w := List.prefix_append _ _
  have hn : b ".@elem" ++ w ≠ [] := by simp [b]
  unfold setReq
  rw [if_neg hn, if_pos hp]
  simp only [pathKey, hf]

example (lib : Lib) : setReq lib exKey [] [(b "k", ())] (b ".@elem") .null = (.self, [(b "k", ())]) :=
  C94_no_key lib exKey [] [(b "k", ())] [] (by simp) .null

end Verif.Rest
