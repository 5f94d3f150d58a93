import Verif.FixPriv
/-
C130: headers made accessible by fix-privates.
-/
namespace Verif.FixPriv

/-! ### Specification -/

/-- The file at a place in a directory, as the compiler finds it; names that begin with a dot are not looked at. -/
def C130.find : Dir → Path → Option Bytes
  | .nil, _ => none
  | .file n c r, p => if p = [n] ∧ hidden n = false then some c else C130.find r p
  | .dir n s r, p =>
    match p with
    | m :: q => if m = n ∧ hidden n = false then C130.find s q else C130.find r p
    | [] => none

/-- The first directory that has the header decides, as with the compiler. -/
def C130.search (ds : List Dir) (p : Path) : Option Bytes := ds.findSome? fun d => C130.find d p

/-- With the script's directory in front. -/
def C130.searchWith (o : Files) (ds : List Dir) (p : Path) : Option Bytes := (o p).or (C130.search ds p)

/-- The names in a directory. -/
def C130.names : Dir → List Name
  | .nil => []
  | .file n _ r => n :: C130.names r
  | .dir n _ r => n :: C130.names r

/-- No two entries of a directory have the same name. -/
def C130.Unique : Dir → Prop
  | .nil => True
  | .file n _ r => n ∉ C130.names r ∧ C130.Unique r
  | .dir n s r => n ∉ C130.names r ∧ C130.Unique s ∧ C130.Unique r

/-- The lines are absolute names of directories that exist. -/
def C130.Lists (root : Dir) : List Line → List Dir → Prop
  | [], [] => True
  | l :: ls, d :: ds => l.abs = true ∧ sub root l.path = some d ∧ C130.Lists root ls ds
  | _, _ => False

open C130

/-! ### Proof -/

private theorem find_out : ∀ (d : Dir) (n : Name) (q : Path), n ∉ names d → find d (n :: q) = none
  | .nil, _, _, _ => rfl
  | .file m c r, n, q, h => by
    simp only [names, List.mem_cons, not_or] at h
    rw [find, if_neg, find_out r n q h.2]
    rintro ⟨e, _⟩
    exact h.1 (List.cons.inj e).1
  | .dir m s r, n, q, h => by
    simp only [names, List.mem_cons, not_or] at h
    rw [find, if_neg (fun e => h.1 e.1), find_out r n q h.2]

private theorem find_nil : ∀ d : Dir, find d [] = none
  | .nil => rfl
  | .file m c r => by rw [find, if_neg (by simp), find_nil r]
  | .dir m s r => rfl

/-- What one call does to the files at a place. -/
private def eff (f : Bytes → Bytes) (x : Option Bytes) (old : Option Bytes) : Option Bytes :=
  match x with
  | some c => if f c = c then none else some (f c)
  | none => old

private theorem one_at (f : Bytes → Bytes) (j : Path) (c : Bytes) (o : Files) (q : Path) :
    one f j c o q = if q = j then eff f (some c) none else o q := by
  simp only [one, eff]
  by_cases h : q = j <;> by_cases h' : f c = c <;> simp [set, h, h']

private theorem proc_at (f : Bytes → Bytes) : ∀ (d : Dir) (p : Path) (o : Files), Unique d →
    (∀ q, procDir f p d o (p ++ q) = eff f (find d q) (o (p ++ q))) ∧ ∀ q, ¬p <+: q → procDir f p d o q = o q
  | .nil, p, o, _ => ⟨fun _ => rfl, fun _ _ => rfl⟩
  | .file n c r, p, o, h => by
    have ih := proc_at f r p (if hidden n then o else one f (p ++ [n]) c o) h.2
    constructor
    · intro q
      rw [procDir, ih.1 q, find]
      by_cases hq : q = [n]
      · subst hq
        rw [find_out r n [] h.1]
        cases hn : hidden n
        · simp [eff, one_at]
        · simp [eff]
      · rw [if_neg (show ¬(q = [n] ∧ hidden n = false) from fun e => hq e.1)]
        congr 1
        cases hn : hidden n
        · simp [one_at, hq]
        · rfl
    · intro q hq
      rw [procDir, ih.2 q hq]
      cases hn : hidden n
      · simp only [Bool.false_eq_true, if_false, one_at]
        rw [if_neg]
        rintro rfl
        exact hq (List.prefix_append _ _)
      · rfl
  | .dir n s r, p, o, h => by
    have ih := proc_at f r p (if hidden n then o else procDir f (p ++ [n]) s o) h.2.2
    have is := proc_at f s (p ++ [n]) o h.2.1
    constructor
    · intro q
      rw [procDir, ih.1 q]
      cases q with
      | nil =>
        rw [find_nil]
        simp only [find, eff, List.append_nil]
        cases hn : hidden n
        · simp only [Bool.false_eq_true, if_false]
          refine is.2 p ?_
          intro hp
          have := hp.length_le
          simp at this
          omega
        · rfl
      | cons m q =>
        rw [find]
        by_cases hm : m = n
        · subst hm
          rw [find_out r m q h.1]
          cases hn : hidden m
          · have := is.1 q
            simp only [List.append_assoc, List.singleton_append] at this
            simp [eff, this]
          · simp [eff]
        · rw [if_neg (show ¬(m = n ∧ hidden n = false) from fun e => hm e.1)]
          congr 1
          cases hn : hidden n
          · simp only [Bool.false_eq_true, if_false]
            refine is.2 _ ?_
            rintro ⟨t, ht⟩
            rw [List.append_assoc] at ht
            have := List.append_cancel_left ht
            exact hm (List.cons.inj this).1.symm
          · rfl
    · intro q hq
      rw [procDir, ih.2 q hq]
      cases hn : hidden n
      · simp only [Bool.false_eq_true, if_false]
        refine is.2 q ?_
        intro hp
        exact hq ((List.prefix_append _ _).trans hp)
      · rfl

private theorem sub_unique (d : Dir) (p : Path) : ∀ e, Unique d → sub d p = some e → Unique e := by
  induction d, p using sub.induct with
  | case1 d => intro e h h'; rw [sub] at h'; cases h'; exact h
  | case2 n p => intro e h h'; rw [sub] at h'; cases h'
  | case3 m c r n p ih => intro e h h'; rw [sub] at h'; exact ih e h.2 h'
  | case4 s r n p ih => intro e h h'; rw [sub, if_pos rfl] at h'; exact ih e h.2.1 h'
  | case5 m s r n p hne ih => intro e h h'; rw [sub, if_neg hne] at h'; exact ih e h.2.2 h'

private theorem script_fold (f : Bytes → Bytes) (root : Dir) (hr : Unique root) (p : Path) : ∀ (ls : List Line) (ds : List Dir) (cwd : Path) (o : Files),
    Lists root ls ds → (ls.foldl (step f root) (cwd, o)).2 p = eff f (ds.reverse.findSome? fun d => find d p) (o p)
  | [], [], _, _, _ => rfl
  | [], _ :: _, _, _, h => h.elim
  | _ :: _, [], _, _, h => h.elim
  | l :: ls, d :: ds, cwd, o, h => by
    have hc : cd root cwd l = l.path := by simp [cd, h.1, h.2.1]
    have hu := sub_unique root l.path d hr h.2.1
    rw [List.foldl_cons]
    have e : step f root (cwd, o) l = (l.path.dropLast, procDir f [] d o) := by simp [step, hc, h.2.1]
    have ih := script_fold f root hr p ls ds l.path.dropLast (procDir f [] d o) h.2.2
    have := (proc_at f d [] o hu).1 p
    rw [List.nil_append] at this
    rw [e, ih, this, List.reverse_cons, List.findSome?_append]
    cases hx : ds.reverse.findSome? fun d => find d p with
    | some c => rfl
    | none => simp [eff]

/-- **C130**, exactly: the script writes what insert-friend makes of the header in the last directory that has it, if that differs from the header, and removes
it otherwise. -/
theorem C130_exact (f : Bytes → Bytes) (root : Dir) (hr : Unique root) (cwd : Path) (ls : List Line) (ds : List Dir) (h : Lists root ls ds)
    (o : Files) (p : Path) : script f root cwd ls o p =
      match search ds.reverse p with
      | some c => if f c = c then none else some (f c)
      | none => o p := by
  rw [script, script_fold f root hr p ls ds cwd o h]
  rfl

private theorem search_agree (p : Path) (ds : List Dir) (h : ∀ d ∈ ds, ∀ e ∈ ds, ∀ c c', find d p = some c → find e p = some c' → c = c') :
    search ds.reverse p = search ds p := by
  unfold search
  cases h1 : ds.reverse.findSome? fun d => find d p with
  | none =>
    rw [List.findSome?_eq_none_iff] at h1
    symm
    rw [List.findSome?_eq_none_iff]
    exact fun d hd => h1 d (by simpa using hd)
  | some c =>
    cases h2 : ds.findSome? fun d => find d p with
    | none =>
      rw [List.findSome?_eq_none_iff] at h2
      obtain ⟨d, hd, he⟩ := List.exists_of_findSome?_eq_some h1
      rw [h2 d (by simpa using hd)] at he
      cases he
    | some c' =>
      obtain ⟨d, hd, he⟩ := List.exists_of_findSome?_eq_some h1
      obtain ⟨d', hd', he'⟩ := List.exists_of_findSome?_eq_some h2
      rw [h d (by simpa using hd) d' hd' c c' he he']

/-- **C130**: with the script's directory in front, the compiler finds each header as insert-friend makes it, if the directories in which it is have it alike, and
the script's directory was empty. -/
theorem C130_headers_partial (f : Bytes → Bytes) (root : Dir) (hr : Unique root) (cwd : Path) (ls : List Line) (ds : List Dir) (h : Lists root ls ds)
    (p : Path) (ha : ∀ d ∈ ds, ∀ e ∈ ds, ∀ c c', find d p = some c → find e p = some c' → c = c') :
    searchWith (script f root cwd ls fun _ => none) ds p = (search ds p).map f := by
  unfold searchWith
  rw [C130_exact f root hr cwd ls ds h, search_agree p ds ha]
  cases search ds p with
  | none => rfl
  | some c =>
    by_cases hf : f c = c
    · simp [hf]
    · simp [hf]

/-- Run again, for instance with other headers or another insert-friend, the script leaves files only for headers that are gone. -/
theorem C130_again (f : Bytes → Bytes) (root : Dir) (hr : Unique root) (cwd : Path) (ls : List Line) (ds : List Dir) (h : Lists root ls ds)
    (o : Files) (p : Path) (hp : ∃ d ∈ ds, find d p ≠ none) : script f root cwd ls o p = script f root cwd ls (fun _ => none) p := by
  rw [C130_exact f root hr cwd ls ds h, C130_exact f root hr cwd ls ds h]
  cases e : search ds.reverse p with
  | some c => rfl
  | none =>
    obtain ⟨d, hd, hn⟩ := hp
    unfold search at e
    rw [List.findSome?_eq_none_iff] at e
    exact absurd (e d (by simpa using hd)) hn

/-! ### Where it fails -/

/-- A header in two directories: the compiler would find the first, what the script writes, or removes, is the second. -/
theorem C130_fails_order (f : Bytes → Bytes) (n a b : Name) (hab : a ≠ b) (hn : hidden n = false) (c d : Bytes) (hc : f c ≠ c) (cwd : Path) :
    let ds := [Dir.file n c .nil, Dir.file n d .nil]
    let root := Dir.dir a (.file n c .nil) (.dir b (.file n d .nil) .nil)
    let ls := [Line.mk true [a], Line.mk true [b]]
    Unique root ∧ Lists root ls ds ∧ search ds [n] = some c ∧ (search ds [n]).map f ≠ some c ∧
    (f d = d → searchWith (script f root cwd ls fun _ => none) ds [n] = some c) ∧
    (f d ≠ d → searchWith (script f root cwd ls fun _ => none) ds [n] = some (f d)) := by
  have h1 : Unique (Dir.dir a (.file n c .nil) (.dir b (.file n d .nil) .nil)) := by simp [Unique, names, hab]
  have h2 : Lists (Dir.dir a (.file n c .nil) (.dir b (.file n d .nil) .nil)) [Line.mk true [a], Line.mk true [b]] [Dir.file n c .nil, Dir.file n d .nil] := by
    simp [Lists, sub, hab]
  have h3 : search [Dir.file n c .nil, Dir.file n d .nil] [n] = some c := by simp [search, find, hn]
  refine ⟨h1, h2, h3, by rw [h3]; simpa using hc, ?_, ?_⟩
  all_goals
    intro hd
    unfold searchWith
    rw [C130_exact f _ h1 cwd _ _ h2, h3]
    simp [search, find, hn, hd]

/-- A directory that does not exist: the files where the script is are taken for headers. -/
theorem C130_fails_missing (f : Bytes → Bytes) (n a b : Name) (hab : a ≠ b) (hn : hidden n = false) (c : Bytes) (hc : f c ≠ c) :
    script f (.dir a (.file n c .nil) .nil) [a] [⟨true, [b]⟩] (fun _ => none) [n] = some (f c) := by
  simp [script, step, cd, sub, hab, procDir, hn, one_at, eff, hc]

/-- Directories given by names relative to where the script is run: it ends up somewhere else after the first of more than one name. -/
theorem C130_fails_relative (f : Bytes → Bytes) (n a b x : Name) (hab : a ≠ b) (hn : hidden n = false) (c : Bytes) (hc : f c ≠ c) :
    let root := Dir.dir x (.dir a (.dir b .nil .nil) (.dir b (.file n c .nil) .nil)) .nil
    sub root ([x] ++ [b]) = some (.file n c .nil) ∧
    script f root [x] [⟨false, [a, b]⟩, ⟨false, [b]⟩] (fun _ => none) [n] = none ∧
    script f root [x] [⟨false, [b]⟩, ⟨false, [a, b]⟩] (fun _ => none) [n] = some (f c) := by
  simp [script, step, cd, sub, hab, procDir, hn, one_at, eff, hc]

/-- Headers in a directory and in a directory of it; those without private members, here, are those with contents of even length. -/
example : let f : Bytes → Bytes := fun c => if c.length % 2 = 0 then c else 0 :: c
    let d := Dir.file ['a'] [1] (.dir ['b'] (.file ['c'] [2, 3] (.file ['d'] [4, 5, 6] .nil)) .nil)
    let o := script f (.dir ['u'] d .nil) [] [⟨true, [['u']]⟩] fun _ => none
    o [['a']] = some [0, 1] ∧ o [['b'], ['c']] = none ∧ o [['b'], ['d']] = some [0, 4, 5, 6] ∧ o [['b']] = none := by
  simp only [script, step, cd, List.foldl]
  simp [sub, procDir, hidden, one, set]

/-! ### Names of directories -/

/-- The entries of a directory that are directories. -/
inductive C130.Child : Dir → Name → Dir → Prop
  | here (n : Name) (s r : Dir) : C130.Child (.dir n s r) n s
  | file (m : Name) (c : Bytes) (r : Dir) (n : Name) (s : Dir) : C130.Child r n s → C130.Child (.file m c r) n s
  | dir (m : Name) (t r : Dir) (n : Name) (s : Dir) : C130.Child r n s → C130.Child (.dir m t r) n s

private theorem child_name {d : Dir} {n : Name} {s : Dir} (h : Child d n s) : n ∈ names d := by
  induction h with
  | here => simp [names]
  | file _ _ _ _ _ _ ih => simp [names, ih]
  | dir _ _ _ _ _ _ ih => simp [names, ih]

/-- The directory a line names is found by taking the entries of its names one after another, whatever else the directories contain. -/
theorem C130_named (d : Dir) (hd : Unique d) (n : Name) (s : Dir) (h : Child d n s) (p : Path) : sub d [] = some d ∧ sub d (n :: p) = sub s p := by
  refine ⟨by simp [sub], ?_⟩
  induction h with
  | here => simp [sub]
  | file m c r n s h ih =>
    simp only [Unique] at hd
    rw [sub, ih hd.2]
  | dir m t r n s h ih =>
    simp only [Unique] at hd
    have : m ≠ n := fun e => hd.1 (e ▸ child_name h)
    rw [sub, if_neg this, ih hd.2.2]

/-- There is nothing else by a name. -/
theorem C130_not_named (d : Dir) (n : Name) (p : Path) (s : Dir) (h : sub d (n :: p) = some s) : ∃ t, Child d n t ∧ sub t p = some s := by
  induction d with
  | nil => simp [sub] at h
  | file m c r ih =>
    rw [sub] at h
    obtain ⟨t, ht, hs⟩ := ih h
    exact ⟨t, .file _ _ _ _ _ ht, hs⟩
  | dir m t r _ ih =>
    rw [sub] at h
    split at h
    · next e => subst e; exact ⟨t, .here _ _ _, h⟩
    · obtain ⟨t', ht, hs⟩ := ih h
      exact ⟨t', .dir _ _ _ _ _ ht, hs⟩

example : sub (.file ['a'] [1] (.dir ['b'] (.dir ['c'] (.file ['d'] [2] .nil) .nil) .nil)) [['b'], ['c']] = some (.file ['d'] [2] .nil) := by
  rw [(C130_named _ (by simp [Unique, names]) ['b'] _ (.file _ _ _ _ _ (.here _ _ _)) _).2, (C130_named _ (by simp [Unique, names]) ['c'] _ (.here _ _ _) _).2]
  simp [sub]

/-! ### Hidden files -/

/-- Headers whose names, or the names of whose directories, begin with a dot are passed over by the script, and no others: in a directory with one
header `n`, the script writes it exactly if the name does not begin with a dot. -/
theorem C130_fails_hidden (f : Bytes → Bytes) (n m : Name) (c : Bytes) (hc : f c ≠ c) (p : Name) :
    (script f (.dir p (.file n c .nil) .nil) [] [⟨true, [p]⟩] (fun _ => none) [n] = some (f c) ↔ ¬ ∃ r, n = '.' :: r) ∧
    (script f (.dir p (.dir n (.file m c .nil) .nil) .nil) [] [⟨true, [p]⟩] (fun _ => none) [n, m] = some (f c) ↔
      ¬ (∃ r, n = '.' :: r) ∧ ¬ ∃ r, m = '.' :: r) := by
  have hh : ∀ n : Name, hidden n = true ↔ ∃ r, n = '.' :: r := by
    intro n
    cases n with
    | nil => simp [hidden]
    | cons a r => simp [hidden]
  constructor
  · rw [← hh]
    cases e : hidden n <;> simp [script, step, cd, sub, procDir, e, one_at, eff, hc]
  · rw [← hh, ← hh]
    cases e : hidden n <;> cases e' : hidden m <;> simp [script, step, cd, sub, procDir, e, e', one_at, eff, hc]

end Verif.FixPriv
