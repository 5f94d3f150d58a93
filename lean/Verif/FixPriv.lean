/-
The script fix-privates, which runs insert-friend on the headers in the directories listed in the file `include-paths`.

Simplified: names have no characters that are special to the shell, the files can be read, the directory written to is not among those read, and no
name is a file in one directory and a directory in the same place of another.  The program insert-friend (C64, C83) is a function from files to
files, `f`.
-/
namespace Verif.FixPriv

abbrev Name := List Char
abbrev Path := List Name
abbrev Bytes := List UInt8

/-- The contents of a directory. -/
inductive Dir
  | nil
  | file (n : Name) (c : Bytes) (r : Dir)
  | dir (n : Name) (s : Dir) (r : Dir)

/-- The files written, by their place under the directory that is the script's argument. -/
abbrev Files := Path → Option Bytes

def set (o : Files) (p : Path) (x : Option Bytes) : Files := fun q => if q = p then x else o q

/-- `*` leaves out names that begin with a dot. -/
def hidden (n : Name) : Bool := n.head? == some '.'

/-- `insert-friend <$i >$j; if diff $i $j >/dev/null; then rm $j; fi`: fix-privates:15-16. -/
def one (f : Bytes → Bytes) (j : Path) (c : Bytes) (o : Files) : Files :=
  let o := set o j (some (f c))
  if f c = c then set o j none else o

/-- `proc_dir`, inside the directory: fix-privates:7-19.  The functions called for its directories change to them and back. -/
def procDir (f : Bytes → Bytes) : Path → Dir → Files → Files
  | _, .nil, o => o
  | p, .file n c r, o => procDir f p r (if hidden n then o else one f (p ++ [n]) c o)
  | p, .dir n s r, o => procDir f p r (if hidden n then o else procDir f (p ++ [n]) s o)

/-- The directory at a place. -/
def sub : Dir → Path → Option Dir
  | d, [] => some d
  | .nil, _ :: _ => none
  | .file _ _ r, n :: p => sub r (n :: p)
  | .dir m s r, n :: p => if m = n then sub s p else sub r (n :: p)
termination_by d p => (p.length, sizeOf d)

/-- A line of `include-paths`. -/
structure Line where
  abs : Bool
  path : Path

/-- `cd $1`: when there is no such directory it stays. -/
def cd (root : Dir) (cwd : Path) (l : Line) : Path :=
  let p := if l.abs then l.path else cwd ++ l.path
  if (sub root p).isSome then p else cwd

/-- One turn of the loop: fix-privates:22-24, with `cd $1` and `cd ..` of `proc_dir`. -/
def step (f : Bytes → Bytes) (root : Dir) (s : Path × Files) (l : Line) : Path × Files :=
  let cwd := cd root s.1 l
  (cwd.dropLast, procDir f [] ((sub root cwd).getD .nil) s.2)

def script (f : Bytes → Bytes) (root : Dir) (cwd : Path) (ls : List Line) (o : Files) : Files :=
  (ls.foldl (step f root) (cwd, o)).2

end Verif.FixPriv
