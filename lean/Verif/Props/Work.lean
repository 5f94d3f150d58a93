import Verif.Work
import Verif.Props.Body
/- C104 -/
namespace Verif.Work
open Verif.Tok (Str b)
open Verif.Top (Reg)
open Verif.Decl (Act Kind)
open Verif.Body (Cfg)

/-! ### Specification -/

/-- What the definitions in a file are for. -/
def C104.defs (l : List Line) : List (Str × Str × List Str) :=
  l.filterMap fun | .defn a t s => some (a, t, s) | _ => none

open C104

private theorem defs_append (l m : List Line) : defs (l ++ m) = defs l ++ defs m := by simp [defs]

private theorem put_defs (c : Cfg) (dir inc : Str) (d : Dir) (x : Str × Reg) (n : Str) :
    defs ((put c dir inc d x).files n) = defs (d.files n) ++
      if fileName dir (Emit.type x.2) = n then [(x.1, target (Emit.type x.2), stmts c x.1 x.2)] else [] := by
  unfold put append
  simp only
  by_cases h : fileName dir (Emit.type x.2) = n
  · rw [if_pos h.symm, if_pos h, defs_append]
    congr 1
    split <;> rfl
  · rw [if_neg (fun e => h e.symm), if_neg h, List.append_nil]

private theorem fold_defs (c : Cfg) (dir inc : Str) (n : Str) : ∀ (l : List (Str × Reg)) (d : Dir),
    defs ((l.foldl (put c dir inc) d).files n) = defs (d.files n) ++
      ((l.filter fun x => fileName dir (Emit.type x.2) = n).map fun x => (x.1, target (Emit.type x.2), stmts c x.1 x.2))
  | [], d => by simp
  | x :: l, d => by
    rw [List.foldl_cons, fold_defs c dir inc n l, put_defs]
    by_cases h : fileName dir (Emit.type x.2) = n
    · simp [h]
    · simp [h]

/-- C104: every descriptor of a type that is no template is defined, once, in the file named after the type, and nothing else is; what
was there stays. -/
theorem C104_files (c : Cfg) (dir inc : Str) (fs : Str → List Line) (l : List (Str × Reg)) (n : Str) :
    defs (run c dir inc fs l n) = defs (fs n) ++
      ((l.filter fun x => Emit.templ x.2 = [] ∧ fileName dir (Emit.type x.2) = n).map fun x =>
        (x.1, target (Emit.type x.2), stmts c x.1 x.2)) := by
  unfold run
  rw [fold_defs, List.filter_filter]
  congr 2
  apply List.filter_congr
  intro x _
  simp [Bool.and_comm]

/-- C104: what was there stays, so that after a second run everything is defined twice, which C++ does not allow: the directory has to be
emptied, as the documentation does. -/
theorem C104_again (c : Cfg) (dir inc : Str) (l : List (Str × Reg)) (n : Str) :
    defs (run c dir inc (run c dir inc (fun _ => []) l) l n) =
      defs (run c dir inc (fun _ => []) l n) ++ defs (run c dir inc (fun _ => []) l n) := by
  rw [C104_files, C104_files]
  rfl

private theorem fold_head (c : Cfg) (dir inc : Str) (hi : inc ≠ []) (n : Str) : ∀ (l : List (Str × Reg)) (d : Dir),
    (n ∈ d.written ∧ (d.files n).head? = some (.incl inc) ∨ n ∉ d.written ∧ d.files n = []) →
    let e := l.foldl (put c dir inc) d
    n ∈ e.written ∧ (e.files n).head? = some (.incl inc) ∨ n ∉ e.written ∧ e.files n = []
  | [], d, h => h
  | x :: l, d, h => by
    refine fold_head c dir inc hi n l _ ?_
    by_cases hx : n = fileName dir (Emit.type x.2)
    · left
      rcases h with ⟨h1, h2⟩ | ⟨h1, h2⟩
      · subst hx
        simp only [put, append, if_true]
        rw [if_neg (by simp [h1]), if_neg (by simp [h1])]
        refine ⟨h1, ?_⟩
        rw [List.head?_append, h2]
        rfl
      · subst hx
        simp only [put, append, if_true, h2]
        rw [if_pos ⟨hi, h1⟩, if_pos ⟨hi, h1⟩]
        simp
    · have e1 : (put c dir inc d x).files n = d.files n := by simp [put, append, hx]
      have e2 : n ∈ (put c dir inc d x).written ↔ n ∈ d.written := by
        simp only [put]
        split
        · simp [hx]
        · rfl
      rw [e1, e2]
      exact h

/-- C104: in a directory that was empty, every file there is begins by including the header. -/
theorem C104_header (c : Cfg) (dir inc : Str) (hi : inc ≠ []) (l : List (Str × Reg)) (n : Str) :
    run c dir inc (fun _ => []) l n = [] ∨ (run c dir inc (fun _ => []) l n).head? = some (.incl inc) := by
  rcases fold_head c dir inc hi n (l.filter fun x => Emit.templ x.2 = []) ⟨fun _ => [], []⟩ (.inr ⟨by simp, rfl⟩) with h | h
  · exact .inr h.2
  · exact .inl h.2

private theorem stmt_of_one {f : Str} {p : Body.Pair} {x : Str} (hm : p.member = [] ∨ Emit.lead p.action (b "classdesc::is_array") = true)
    (h : Body.oper f p = [x]) : b "::" ++ f ++ b "(targ,desc+\"" ++ p.name ++ b "\"," ++ p.action ++ b ");" = x := by
  unfold Body.oper at h
  rw [if_neg (by rcases hm with h | h <;> simp [h])] at h
  split at h
  · simpa using h
  · cases h

private theorem lead_array (s : Str) : Emit.lead (b "classdesc::is_array" ++ s) (b "classdesc::is_array") = true := by
  simp [Emit.lead]

private theorem member (tn : Bool) (pre : Str) (a : Act) (hf : a.kind = .func → a.static = true ∨ a.cs = true) :
    (Body.pair ⟨false, tn⟩ pre a).member = [] ∨
      Emit.lead (Body.pair ⟨false, tn⟩ pre a).action (b "classdesc::is_array") = true := by
  unfold Body.pair
  simp only
  by_cases hs : a.cs = true
  · left; rw [if_pos hs]
  rw [if_neg hs]
  simp only
  unfold Body.args
  cases hk : a.kind with
  | bytes =>
    simp only
    split
    · exact .inl rfl
    · right
      rw [show b "classdesc::is_array(),(char&)(arg." = b "classdesc::is_array" ++ b "(),(char&)(arg." by decide +kernel]
      simp only [List.append_assoc]
      exact lead_array _
  | data ref =>
    left
    simp only
    split
    · rfl
    · simp
  | func => left; simp [hf hk]
  | array l =>
    right
    simp only [Body.array]
    rw [show b "classdesc::is_array(),arg." = b "classdesc::is_array" ++ b "(),arg." by decide +kernel]
    simp only [List.append_assoc]
    rw [List.dropLast_append_of_ne_nil (by simp [Body.bounds, show b "," = [44] by decide])]
    exact lead_array _

/-- C104: the statements for a class are those wanted: each base class, and each member under its name, if pointers to members are not
asked for and the class has no member functions other than static ones.  Missing: the others, for which it is false. -/
theorem C104_stmts_partial (tn : Bool) (f key n ns templ : Str) (hk : Top.Key key) (as : List Str) (acts : List Act)
    (hg : ∀ a ∈ acts, Body.Good n a)
    (hf : ∀ a ∈ acts, a.kind = .func → a.static = true ∨ a.cs = true) :
    stmts ⟨false, tn⟩ f (.cls (key ++ b " " ++ n) ns templ as acts) =
      (as.map fun a => Body.call f [] [a]) ++ acts.map fun a => Body.call f (b "." ++ a.name) (Body.passed ⟨false, tn⟩ n a) := by
  have mem : ∀ a ∈ acts, Body.oper f (Body.pair ⟨false, tn⟩ (Body.scopeOf (key ++ b " " ++ n)) a) =
      [Body.call f (b "." ++ a.name) (Body.passed ⟨false, tn⟩ n a)] := by
    intro a ha
    have := Body.C82_operator_partial ⟨false, tn⟩ f key n ns templ hk (bs := []) (mem := [(a.name, a.kind)]) (tidy := True) (want := [a]) (as := []) (acts := [a])
      (.cls .nil rfl fun _ => rfl) trivial (by simpa using hg a ha) (by simp)
    simpa [Body.operStmts, Body.pairs] using this
  unfold stmts Body.pairs
  rw [List.map_append, List.map_map, List.map_map]
  congr 1
  · apply List.map_congr_left
    intro a ha
    simp [Body.call, show b "\"," = b "\"" ++ b "," by decide +kernel]
  · apply List.map_congr_left
    intro a ha
    exact stmt_of_one (member tn _ a (hf a ha)) (mem a ha)

private theorem scope {key : Str} (hk : Top.Key key) (n : Str) : Body.scopeOf (key ++ b " " ++ n) = n ++ b "::" := by
  rcases hk with rfl | rfl
  · rw [show b "class" ++ b " " = [99, 108, 97, 115, 115, 32] by decide +kernel]
    unfold Body.scopeOf
    rw [show b "class " = [99, 108, 97, 115, 115, 32] by decide +kernel]
    simp [Emit.lead]
  · rw [show b "struct" ++ b " " = [115, 116, 114, 117, 99, 116, 32] by decide +kernel]
    unfold Body.scopeOf
    rw [show b "struct " = [115, 116, 114, 117, 99, 116, 32] by decide +kernel, show b "class " = [99, 108, 97, 115, 115, 32] by decide +kernel]
    simp [Emit.lead]

/-- C104 fails for a member function that is not static: only the pointer to it is passed, not the object, -/
theorem C104_fails_function (c : Cfg) (f key n ns templ : Str) (hk : Top.Key key) (as : List Str) (acts : List Act) (a : Act) (ha : a ∈ acts)
    (hn : a.name ≠ []) (h : a.kind = .func) (hs : a.static = false) (hc : a.cs = false) :
    Body.call f (b "." ++ a.name) [b "&" ++ n ++ b "::" ++ a.name] ∈ stmts c f (.cls (key ++ b " " ++ n) ns templ as acts) ∧
      Body.passed c n a = [b "arg", b "&" ++ n ++ b "::" ++ a.name] := by
  refine ⟨?_, by simp [Body.passed, h, hs, hc]⟩
  refine List.mem_map.2 ⟨Body.pair c (Body.scopeOf (key ++ b " " ++ n)) a, ?_, ?_⟩
  · unfold Body.pairs
    exact List.mem_append_right _ (List.mem_map_of_mem ha)
  · rw [scope hk]
    simp [Body.pair, Body.args, Body.call, h, hs, hc, hn, show b "\"," = b "\"" ++ b "," by decide +kernel]

/-- and, with -use_mbr_pointers, for a member that is data. -/
theorem C104_fails_pointer (tn : Bool) (f key n ns templ : Str) (hk : Top.Key key) (as : List Str) (acts : List Act) (a : Act) (ha : a ∈ acts)
    (hn : a.name ≠ []) (h : a.kind = .data false) (hc : a.cs = false) :
    Body.call f (b "." ++ a.name) [b "&" ++ n ++ b "::" ++ a.name] ∈ stmts ⟨true, tn⟩ f (.cls (key ++ b " " ++ n) ns templ as acts) ∧
      Body.passed ⟨true, tn⟩ n a = [b "arg", b "&" ++ n ++ b "::" ++ a.name] := by
  refine ⟨?_, by simp [Body.passed, h,  hc]⟩
  refine List.mem_map.2 ⟨Body.pair ⟨true, tn⟩ (Body.scopeOf (key ++ b " " ++ n)) a, ?_, ?_⟩
  · unfold Body.pairs
    exact List.mem_append_right _ (List.mem_map_of_mem ha)
  · rw [scope hk]
    simp [Body.pair, Body.args, Body.call, h,  hc, hn, show b "\"," = b "\"" ++ b "," by decide +kernel]

/-- C104: what is defined is the descriptor of the type declared without the option, except for enumerations declared as classes. -/
theorem C104_target_partial (t : Str) (h : Emit.qualifier t ≠ b "enum class") : target t = Emit.target t := by
  unfold target Emit.target
  rw [if_neg h]

/-- For these the keywords are repeated, which C++ does not allow in the name of a type. -/
theorem C104_fails_enum (n : Str) : target (b "enum class " ++ n) = b "enum class " ++ n ∧ Emit.target (b "enum class " ++ n) = b "enum " ++ n := by
  have e : b "enum class " = [101, 110, 117, 109, 32, 99, 108, 97, 115, 115, 32] := by decide +kernel
  have e1 : b "class" = [99, 108, 97, 115, 115] := by decide +kernel
  have e2 : b "struct" = [115, 116, 114, 117, 99, 116] := by decide +kernel
  have e3 : b "enum class" = [101, 110, 117, 109, 32, 99, 108, 97, 115, 115] := by decide +kernel
  have e4 : b "enum " = [101, 110, 117, 109, 32] := by decide +kernel
  have e5 : b "enum" = [101, 110, 117, 109] := by decide +kernel
  have q : Emit.qualifier (b "enum class " ++ n) = b "enum class" := by
    unfold Emit.qualifier
    rw [e, e1, e2, e3]
    simp [Emit.lead]
  have r : Emit.bareType (b "enum class " ++ n) = n := by
    unfold Emit.bareType
    rw [q, e, e3]
    simp
  unfold target Emit.target
  rw [q, r, e, e3, e4, e5]
  simp

/-! ### Cases -/

private def A : Reg := .cls (b "class ::A") [] [] [b "classdesc::base_cast<B >::cast(arg)"]
  [⟨b "x", .data false, false, false⟩, ⟨b "m", .array [[b "2"]], false, false⟩, ⟨b "f", .func, false, false⟩]

example : run ⟨false, false⟩ (b "a.cdir/") (b "../a.h") (fun _ => []) [(b "pack", A), (b "xml", .enum (b "enum class ::E") [] [])]
      (b "a.cdir/class___A.cc") =
    [.incl (b "../a.h"), .incl (b "pack_base.h"), .defn (b "pack") (b "class ::A")
      [b "::pack(targ,desc+\"\",classdesc::base_cast<B >::cast(arg));", b "::pack(targ,desc+\".x\",arg.x);",
        b "::pack(targ,desc+\".m\",classdesc::is_array(),arg.m[0],1, 2);", b "::pack(targ,desc+\".f\",&::A::f);"],
      .incl (b "classdesc_epilogue.h")] := by decide +kernel

example : C104.defs (run ⟨false, false⟩ (b "a.cdir/") (b "../a.h") (fun _ => []) [(b "pack", A), (b "unpack", A)]
    (b "a.cdir/class___A.cc")) = [(b "pack", b "class ::A", stmts ⟨false, false⟩ (b "pack") A), (b "unpack", b "class ::A", stmts ⟨false, false⟩ (b "unpack") A)] := by
  rw [C104_files]
  decide +kernel

example : stmts ⟨false, false⟩ (b "pack") (.cls (b "class" ++ b " " ++ b "::A") [] [] [b "B"] [⟨b "x", .data false, false, false⟩, ⟨b "f", .func, true, false⟩]) =
    [b "::pack(targ,desc+\"\",B);", b "::pack(targ,desc+\".x\",arg.x);", b "::pack(targ,desc+\".f\",&::A::f);"] := by
  rw [C104_stmts_partial false (b "pack") (b "class") (b "::A") [] [] (.inl rfl)]
  · decide +kernel
  · have id : ∀ c : UInt8, Bases.idStart c = true → Bases.Ident [c] := fun c h => ⟨c, [], rfl, h, by simp⟩
    intro a ha
    simp only [List.mem_cons, List.not_mem_nil, or_false] at ha
    rcases ha with rfl | rfl
    · exact ⟨id 120 (by decide), by decide +kernel, by simp⟩
    · exact ⟨id 102 (by decide), by decide +kernel, by simp⟩
  · simp

end Verif.Work
