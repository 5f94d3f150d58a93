import Verif.Opt
/- C105 -/
namespace Verif.Opt
open Verif.Tok (Str b)

/-! ### Specification -/

/-- The options documented. -/
inductive C105.Op
  | workdir (d : Str) | header (h : Str) | I (d : Str) | i (f : Str)
  | objc | overload | nodef | respect_private | use_mbr_pointers | typeName | onbase | qt
  deriving DecidableEq

/-- As written on the command line. -/
def C105.words : C105.Op → List Str
  | .workdir d => [b "-workdir", d]
  | .header h => [b "-include", h]
  | .I d => [b "-I", d]
  | .i f => [b "-i", f]
  | .objc => [b "-objc"]
  | .overload => [b "-overload"]
  | .nodef => [b "-nodef"]
  | .respect_private => [b "-respect_private"]
  | .use_mbr_pointers => [b "-use_mbr_pointers"]
  | .typeName => [b "-typeName"]
  | .onbase => [b "-onbase"]
  | .qt => [b "-qt"]

/-- The words that are options. -/
def C105.known : List Str := [b "-workdir", b "-include", b "-I", b "-i", b "-objc", b "-overload", b "-nodef", b "-respect_private",
  b "-use_mbr_pointers", b "-typeName", b "-onbase", b "-qt", b "-v"]

def C105.dirs (os : List C105.Op) : List Str := os.filterMap fun | .workdir d => some d | _ => none
def C105.headers (os : List C105.Op) : List Str := os.filterMap fun | .header d => some d | _ => none
def C105.paths (os : List C105.Op) : List Str := os.filterMap fun | .I d => some d | _ => none
def C105.inputs (os : List C105.Op) : List Str := os.filterMap fun | .i d => some d | _ => none

/-- What a list of options asks for: flags wherever they are, the last of arguments, all directories in order. -/
def C105.asked (os : List C105.Op) : Opts where
  workdir := match (C105.dirs os).getLast? with | some d => d ++ b "/" | none => []
  header := (C105.headers os).getLast?.getD []
  path := b "." :: C105.paths os
  input := (C105.inputs os).getLast?.getD (b "stdin")
  objc := decide (.objc ∈ os)
  overload := decide (.overload ∈ os)
  define := !decide (.nodef ∈ os)
  respect := decide (.respect_private ∈ os)
  mbr := decide (.use_mbr_pointers ∈ os)
  typeName := decide (.typeName ∈ os)
  onbase := decide (.onbase ∈ os)
  qt := decide (.qt ∈ os)

open C105

/-! ### One option after the other -/

private def exec : Opts → List Str → Option Exit
  | o, [] => some (.go o [])
  | o, a :: r =>
    if a = b "-objc" then exec { o with objc := true } r
    else if a = b "-overload" then exec { o with overload := true } r
    else if a = b "-nodef" then exec { o with define := false } r
    else if a = b "-respect_private" then exec { o with respect := true } r
    else if a = b "-use_mbr_pointers" then exec { o with mbr := true } r
    else if a = b "-typeName" then exec { o with typeName := true } r
    else if a = b "-onbase" then exec { o with onbase := true } r
    else if a = b "-qt" then exec { o with qt := true } r
    else if a = b "-v" then some .version
    else match r with
    | [] => if a = b "-workdir" ∨ a = b "-include" ∨ a = b "-I" ∨ a = b "-i" then some .missing
        else if a.head? = some 45 then none else some (.go o [a])
    | d :: r' =>
      if a = b "-workdir" then exec { o with workdir := d ++ b "/" } r'
      else if a = b "-include" then exec { o with header := d } r'
      else if a = b "-I" then exec { o with path := o.path ++ [d] } r'
      else if a = b "-i" then exec { o with input := d } r'
      else if a.head? = some 45 then none
      else some (.go o (a :: d :: r'))

/-- A step that looks for these words. -/
private def Step (S : List Str) (x : St) : Except Exit St → Prop
  | .error e => exec x.1 x.2 = some e
  | .ok y => exec x.1 x.2 = exec y.1 y.2 ∧ (y = x ∧ (∀ s ∈ S, x.2.head? ≠ some s) ∨ y.2.length < x.2.length)

private theorem flag_step {name : Str} {f : Opts → Opts} (h : ∀ o r, exec o (name :: r) = exec (f o) r) (x : St) :
    Step [name] x (.ok (flag name f x)) := by
  obtain ⟨o, l⟩ := x
  unfold flag Step
  cases l with
  | nil => simp
  | cons a r =>
    by_cases e : a = name
    · subst e; simp [h]
    · simp [e]

private theorem arg_step {name : Str} {f : Opts → Str → Opts} (h : ∀ o d r, exec o (name :: d :: r) = exec (f o d) r)
    (h' : ∀ o, exec o [name] = some .missing) (x : St) : Step [name] x (arg name f x) := by
  obtain ⟨o, l⟩ := x
  unfold arg Step
  cases l with
  | nil => simp
  | cons a r =>
    by_cases e : a = name
    · subst e
      cases r with
      | nil => simp [h']
      | cons d r => simp [h]; omega
    · simp [e]

private theorem Step.bind {S T : List Str} {x : St} {e : Except Exit St} {f : St → Except Exit St} (h : Step S x e)
    (h' : ∀ y, Step T y (f y)) : Step (S ++ T) x (e >>= f) := by
  cases e with
  | error e => exact h
  | ok y =>
    have g := h' y
    show Step (S ++ T) x (f y)
    cases e : f y with
    | error e' => rw [e] at g; exact h.1.trans g
    | ok z =>
      rw [e] at g
      refine ⟨h.1.trans g.1, ?_⟩
      rcases h.2 with ⟨rfl, h1⟩ | h1
      · rcases g.2 with ⟨rfl, g1⟩ | g1
        · left
          refine ⟨rfl, fun s hs => ?_⟩
          rcases List.mem_append.1 hs with hs | hs
          · exact h1 s hs
          · exact g1 s hs
        · exact .inr g1
      · right
        rcases g.2 with ⟨rfl, _⟩ | g1
        · exact h1
        · omega

private theorem version_step (x : St) : Step [b "-v"] x (if x.2.head? = some (b "-v") then .error .version else .ok x) := by
  obtain ⟨o, l⟩ := x
  split
  case isTrue h =>
    cases l with
    | nil => simp at h
    | cons a r =>
      simp at h
      subst h
      show exec o (b "-v" :: r) = some .version
      cases r <;> (conv => lhs; rw [exec]); all_goals ( repeat (first | rw [if_pos (by decide +kernel)] | rw [if_neg (by decide +kernel)]))
  case isFalse h => exact ⟨rfl, .inl ⟨rfl, by simpa using h⟩⟩

private theorem iter_eq (x : St) : iter x =
    (arg (b "-workdir") (fun o d => { o with workdir := d ++ b "/" }) x >>= fun x =>
      .ok (flag (b "-objc") (fun o => { o with objc := true }) x) >>= fun x =>
      .ok (flag (b "-overload") (fun o => { o with overload := true }) x) >>= fun x =>
      arg (b "-include") (fun o d => { o with header := d }) x >>= fun x =>
      .ok (flag (b "-nodef") (fun o => { o with define := false }) x) >>= fun x =>
      .ok (flag (b "-respect_private") (fun o => { o with respect := true }) x) >>= fun x =>
      .ok (flag (b "-use_mbr_pointers") (fun o => { o with mbr := true }) x) >>= fun x =>
      arg (b "-I") (fun o d => { o with path := o.path ++ [d] }) x >>= fun x =>
      .ok (flag (b "-typeName") (fun o => { o with typeName := true }) x) >>= fun x =>
      .ok (flag (b "-onbase") (fun o => { o with onbase := true }) x) >>= fun x =>
      arg (b "-i") (fun o d => { o with input := d }) x >>= fun x =>
      if x.2.head? = some (b "-v") then .error .version else .ok (flag (b "-qt") (fun o => { o with qt := true }) x)) := by
  unfold iter
  rfl

private theorem iter_step (x : St) : Step ([b "-workdir"] ++ ([b "-objc"] ++ ([b "-overload"] ++ ([b "-include"] ++ ([b "-nodef"] ++ ([b "-respect_private"] ++ ([b "-use_mbr_pointers"] ++ ([b "-I"] ++ ([b "-typeName"] ++ ([b "-onbase"] ++ ([b "-i"] ++ ([b "-v"] ++ ([b "-qt"]))))))))))))) x (iter x) := by
  rw [iter_eq]
  refine Step.bind (arg_step (fun o d r => by rw [exec]; repeat (first | rw [if_pos (by decide +kernel)] | rw [if_neg (by decide +kernel)])) (fun o => by rw [exec]; repeat (first | rw [if_pos (by decide +kernel)] | rw [if_neg (by decide +kernel)])) _) fun x => ?_
  refine Step.bind (flag_step (fun o r => by cases r <;> (conv => lhs; rw [exec]); all_goals ( repeat (first | rw [if_pos (by decide +kernel)] | rw [if_neg (by decide +kernel)]))) _) fun x => ?_
  refine Step.bind (flag_step (fun o r => by cases r <;> (conv => lhs; rw [exec]); all_goals ( repeat (first | rw [if_pos (by decide +kernel)] | rw [if_neg (by decide +kernel)]))) _) fun x => ?_
  refine Step.bind (arg_step (fun o d r => by rw [exec]; repeat (first | rw [if_pos (by decide +kernel)] | rw [if_neg (by decide +kernel)])) (fun o => by rw [exec]; repeat (first | rw [if_pos (by decide +kernel)] | rw [if_neg (by decide +kernel)])) _) fun x => ?_
  refine Step.bind (flag_step (fun o r => by cases r <;> (conv => lhs; rw [exec]); all_goals ( repeat (first | rw [if_pos (by decide +kernel)] | rw [if_neg (by decide +kernel)]))) _) fun x => ?_
  refine Step.bind (flag_step (fun o r => by cases r <;> (conv => lhs; rw [exec]); all_goals ( repeat (first | rw [if_pos (by decide +kernel)] | rw [if_neg (by decide +kernel)]))) _) fun x => ?_
  refine Step.bind (flag_step (fun o r => by cases r <;> (conv => lhs; rw [exec]); all_goals ( repeat (first | rw [if_pos (by decide +kernel)] | rw [if_neg (by decide +kernel)]))) _) fun x => ?_
  refine Step.bind (arg_step (fun o d r => by rw [exec]; repeat (first | rw [if_pos (by decide +kernel)] | rw [if_neg (by decide +kernel)])) (fun o => by rw [exec]; repeat (first | rw [if_pos (by decide +kernel)] | rw [if_neg (by decide +kernel)])) _) fun x => ?_
  refine Step.bind (flag_step (fun o r => by cases r <;> (conv => lhs; rw [exec]); all_goals ( repeat (first | rw [if_pos (by decide +kernel)] | rw [if_neg (by decide +kernel)]))) _) fun x => ?_
  refine Step.bind (flag_step (fun o r => by cases r <;> (conv => lhs; rw [exec]); all_goals ( repeat (first | rw [if_pos (by decide +kernel)] | rw [if_neg (by decide +kernel)]))) _) fun x => ?_
  refine Step.bind (arg_step (fun o d r => by rw [exec]; repeat (first | rw [if_pos (by decide +kernel)] | rw [if_neg (by decide +kernel)])) (fun o => by rw [exec]; repeat (first | rw [if_pos (by decide +kernel)] | rw [if_neg (by decide +kernel)])) _) fun x => ?_
  have e : (if x.2.head? = some (b "-v") then .error .version else .ok (flag (b "-qt") (fun o => { o with qt := true }) x)) =
      (if x.2.head? = some (b "-v") then .error .version else .ok x : Except Exit St) >>= fun x => .ok (flag (b "-qt") (fun o => { o with qt := true }) x) := by
    split <;> rfl
  rw [e]
  exact Step.bind (version_step _) fun x => flag_step (fun o r => by cases r <;> (conv => lhs; rw [exec]); all_goals ( repeat (first | rw [if_pos (by decide +kernel)] | rw [if_neg (by decide +kernel)]))) _

private theorem exec_unknown {o : Opts} {a : Str} {r : List Str} (ha : a ∉ known) : exec o (a :: r) =
    if a.head? = some 45 then none else some (.go o (a :: r)) := by
  simp only [known, List.mem_cons, List.not_mem_nil, or_false, not_or] at ha
  rw [exec.eq_def]
  cases r <;> simp [ha]

private theorem loop_exec : ∀ (n : Nat) (x : St), (x.2.length < n ∨ exec x.1 x.2 = none) → loop n x = exec x.1 x.2
  | 0, x, h => by
    rcases h with h | h
    · simp at h
    · rw [h]; rfl
  | n + 1, (o, l), h => by
    cases l with
    | nil => simp [loop, more, exec]
    | cons a r =>
      by_cases hm : a.head? = some 45
      · have hs := iter_step (o, a :: r)
        simp only [loop, more, hm, decide_true, if_true]
        cases e : iter (o, a :: r) with
        | error e' => rw [e] at hs; exact hs.symm
        | ok y =>
          rw [e] at hs
          simp only
          rw [hs.1]
          apply loop_exec
          rcases hs.2 with ⟨rfl, h1⟩ | h1
          · right
            rw [exec_unknown, if_pos hm]
            intro hk
            refine h1 a ?_ rfl
            revert hk
            simp only [known, List.mem_cons, List.not_mem_nil, or_false, List.mem_append]
            intro hk
            rcases hk with hk | hk | hk | hk | hk | hk | hk | hk | hk | hk | hk | hk | hk <;> simp [hk]
          · rcases h with h | h
            · left; simp only [List.length_cons] at h h1; omega
            · right; rw [← hs.1]; exact h
      · have : a ∉ known := by
          intro hk
          have all : ∀ a ∈ known, a.head? = some 45 := by decide +kernel
          exact hm (all a hk)
        rw [exec_unknown this, if_neg hm]
        simp [loop, more, hm]

private def apply (o : Opts) : Op → Opts
  | .workdir d => { o with workdir := d ++ b "/" }
  | .header d => { o with header := d }
  | .I d => { o with path := o.path ++ [d] }
  | .i d => { o with input := d }
  | .objc => { o with objc := true }
  | .overload => { o with overload := true }
  | .nodef => { o with define := false }
  | .respect_private => { o with respect := true }
  | .use_mbr_pointers => { o with mbr := true }
  | .typeName => { o with typeName := true }
  | .onbase => { o with onbase := true }
  | .qt => { o with qt := true }

private theorem exec_word (o : Opts) (p : Op) (r : List Str) : exec o (words p ++ r) = exec (apply o p) r := by
  cases p <;> simp only [words, List.cons_append, List.nil_append, apply] <;> cases r <;> (conv => lhs; rw [exec]); all_goals ( repeat (first | rw [if_pos (by decide +kernel)] | rw [if_neg (by decide +kernel)]))

private theorem exec_words : ∀ (os : List Op) (o : Opts) (r : List Str), exec o (os.flatMap words ++ r) = exec (os.foldl apply o) r
  | [], _, _ => rfl
  | p :: os, o, r => by rw [List.flatMap_cons, List.append_assoc, exec_word, exec_words os]; rfl

private theorem asked_snoc (os : List Op) (p : Op) : apply (asked os) p = asked (os ++ [p]) := by
  cases p <;> simp [apply, asked, dirs, headers, paths, inputs]

private theorem foldl_asked (os : List Op) : os.foldl apply {} = asked os := by
  have : ∀ (l k : List Op), l.foldl apply (asked k) = asked (k ++ l) := by
    intro l
    induction l with
    | nil => simp
    | cons p l ih => intro k; rw [List.foldl_cons, asked_snoc, ih]; simp
  have e := this os []
  rw [List.nil_append] at e
  exact e

private theorem start_eq {args : List Str} (h : args ≠ []) (n : Nat) (hn : args.length < n ∨ exec {} args = none) :
    start n args = exec {} args := by
  unfold start
  rw [if_neg h]
  exact loop_exec n _ hn

private theorem exec_asked (os : List Op) (r : List Str) : exec {} (os.flatMap words ++ r) = exec (asked os) r := by
  rw [exec_words, foldl_asked]

private theorem exec_go (o : Opts) (ds : List Str) (h : ∀ a ∈ ds.head?, a.head? ≠ some 45) : exec o ds = some (.go o ds) := by
  cases ds with
  | nil => rfl
  | cons a r =>
    have ha := h a rfl
    rw [exec_unknown, if_neg ha]
    intro hk
    have all : ∀ a ∈ known, a.head? = some 45 := by decide +kernel
    exact ha (all a hk)

/-! ### Theorems -/

/-- C105: options in front of the descriptors, in any order, are taken for what they ask for, and the rest as the names of descriptors. -/
theorem C105_options_partial (os : List Op) (ds : List Str) (h : ∀ a ∈ ds.head?, a.head? ≠ some 45) (hne : os ≠ [] ∨ ds ≠ []) (n : Nat)
    (hn : (os.flatMap words ++ ds).length < n) : start n (os.flatMap words ++ ds) = some (.go (asked os) ds) := by
  rw [start_eq _ n (.inl hn), exec_asked, exec_go _ _ h]
  intro e
  rw [List.append_eq_nil_iff, List.flatMap_eq_nil_iff] at e
  rcases hne with hne | hne
  · obtain ⟨p, hp⟩ := List.exists_mem_of_ne_nil os hne
    have := e.1 p hp
    cases p <;> simp [words] at this
  · exact hne e.2

/-- C105: the order of flags among themselves makes no difference. -/
theorem C105_order (os os' : List Op) (h : os.Perm os') (hw : dirs os = dirs os') (hh : headers os = headers os') (hp : paths os = paths os')
    (hi : inputs os = inputs os') : asked os = asked os' := by
  simp only [asked, hw, hh, hp, hi, h.mem_iff]

/-- C105: an option whose argument is missing is reported. -/
theorem C105_missing (os : List Op) (a : Str) (ha : a ∈ [b "-workdir", b "-include", b "-I", b "-i"]) (n : Nat)
    (hn : (os.flatMap words ++ [a]).length < n) : start n (os.flatMap words ++ [a]) = some .missing := by
  rw [start_eq (by simp) n (.inl hn), exec_asked]
  simp only [List.mem_cons, List.not_mem_nil, or_false] at ha
  rcases ha with rfl | rfl | rfl | rfl <;> (rw [exec]; repeat (first | rw [if_pos (by decide +kernel)] | rw [if_neg (by decide +kernel)]))

/-- C105: without arguments, the program says how it is used. -/
theorem C105_usage (n : Nat) : start n [] = some .usage := rfl

/-- C105: -v shows the version, whatever follows. -/
theorem C105_version (os : List Op) (r : List Str) (n : Nat) (hn : (os.flatMap words ++ b "-v" :: r).length < n) :
    start n (os.flatMap words ++ b "-v" :: r) = some .version := by
  rw [start_eq (by simp) n (.inl hn), exec_asked]
  cases r <;> (rw [exec]; repeat (first | rw [if_pos (by decide +kernel)] | rw [if_neg (by decide +kernel)]))

/-- C105 fails for any other word that begins as an option does: the program goes round in its loop for ever. -/
theorem C105_fails_unknown (os : List Op) (a : Str) (ha : a.head? = some 45) (hk : a ∉ known) (r : List Str) (n : Nat) :
    start n (os.flatMap words ++ a :: r) = none := by
  have : exec {} (os.flatMap words ++ a :: r) = none := by rw [exec_asked, exec_unknown hk, if_pos ha]
  rw [start_eq (by simp) n (.inr this), this]

/-- C105 fails for options behind the name of a descriptor: they are taken for descriptors. -/
theorem C105_fails_late (os late : List Op) (d : Str) (ds : List Str) (h : d.head? ≠ some 45) (n : Nat)
    (hn : (os.flatMap words ++ (d :: ds ++ late.flatMap words)).length < n) :
    start n (os.flatMap words ++ (d :: ds ++ late.flatMap words)) = some (.go (asked os) (d :: ds ++ late.flatMap words)) :=
  C105_options_partial os _ (by simpa using h) (.inr (by simp)) n hn

/-- C105 fails for insert-friend: with any option it goes round for ever; without, it begins. -/
theorem C105_fails_friend (args : List Str) : (∃ a r, args = a :: r ∧ a.head? = some 45) ↔ ∀ n, friendStart n args = false := by
  constructor
  · rintro ⟨a, r, rfl, h⟩ n
    induction n with
    | zero => rfl
    | succ n ih => simp [friendStart, more, h]; exact ih
  · intro h
    have := h 1
    cases args with
    | nil => simp [friendStart, more] at this
    | cons a r =>
      refine ⟨a, r, rfl, ?_⟩
      simpa [friendStart, more] using this

/-! ### Cases -/

example : start 9 [b "-typeName", b "-I", b "inc", b "-I", b "-qt", b "pack", b "unpack"] =
    some (.go { typeName := true, path := [b ".", b "inc", b "-qt"] } [b "pack", b "unpack"]) := by
  have := C105_options_partial [.typeName, .I (b "inc"), .I (b "-qt")] [b "pack", b "unpack"] (by decide +kernel) (.inl (by simp)) 9 (by decide +kernel)
  have e : asked [.typeName, .I (b "inc"), .I (b "-qt")] = { typeName := true, path := [b ".", b "inc", b "-qt"] } := by decide +kernel
  rw [e] at this
  exact this

example : asked [.qt, .workdir (b "d"), .objc] = asked [.objc, .qt, .workdir (b "d")] :=
  C105_order _ _ (by decide) rfl rfl rfl rfl

example : start 5 [b "-nodef", b "-i"] = some .missing := by decide +kernel

example (n : Nat) : start n [b "-typename", b "pack"] = none :=
  C105_fails_unknown [] (b "-typename") (by decide +kernel) (by decide +kernel) _ n

example : start 5 [b "pack", b "-typeName"] = some (.go {} [b "pack", b "-typeName"]) := by decide +kernel

end Verif.Opt
