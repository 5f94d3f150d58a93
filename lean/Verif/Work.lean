import Verif.Body
/-
The option -workdir: definitions of descriptors go to files, classdesc.cc:1623-1706, one run after the other.
The typedefs in front of the statements (classdesc.cc:1669-1684) are left out.
-/
namespace Verif.Work
open Verif.Tok (Str b)
open Verif.Top (Reg)
open Verif.Emit (qualifier bareType alnum)
open Verif.Body (Cfg pairs)

/-- `oname`: classdesc.cc:1625-1633.  `dir` has its trailing slash (1162). -/
def fileName (dir t : Str) : Str := dir ++ t.map (fun c => if alnum c = true then c else 95) ++ b ".cc"

/-- `type_arg_name`: classdesc.cc:1649-1652. -/
def target (t : Str) : Str := qualifier t ++ [32] ++ bareType t

/-- The statements: classdesc.cc:1685-1693. -/
def stmts (c : Cfg) (action : Str) (r : Reg) : List Str :=
  (pairs c r).map fun p => b "::" ++ action ++ b "(targ,desc+\"" ++ p.name ++ b "\"," ++ p.action ++ b ");"

/-- What is written to a file. -/
inductive Line
  /-- `#include "..."` -/
  | incl (name : Str)
  /-- The definition of `access_action<target>::operator()`, with the instantiations for a constant and a variable. -/
  | defn (action target : Str) (body : List Str)
  deriving DecidableEq, Repr

/-- The files, and the names in `header_written`. -/
structure Dir where
  files : Str → List Line
  written : List Str

/-- `fopen(...,"a")`, and what is written at once. -/
def append (fs : Str → List Line) (n : Str) (l : List Line) : Str → List Line := fun m => if m = n then fs m ++ l else fs m

/-- A type that is not a template (classdesc.cc:1547), for one action: classdesc.cc:1634-1705.  `inc` is the argument of -include, or
empty. -/
def put (c : Cfg) (dir inc : Str) (d : Dir) (x : Str × Reg) : Dir :=
  let n := fileName dir (Emit.type x.2)
  let head := inc ≠ [] ∧ n ∉ d.written
  ⟨append d.files n ((if head then [Line.incl inc] else []) ++
      [.incl (x.1 ++ b "_base.h"), .defn x.1 (target (Emit.type x.2)) (stmts c x.1 x.2), .incl (b "classdesc_epilogue.h")]),
    if head then n :: d.written else d.written⟩

/-- A run of the program, for the descriptors to be written (those not left out by a pragma). -/
def run (c : Cfg) (dir inc : Str) (fs : Str → List Line) (l : List (Str × Reg)) : Str → List Line :=
  ((l.filter fun x => Emit.templ x.2 = []).foldl (put c dir inc) ⟨fs, []⟩).files

end Verif.Work
