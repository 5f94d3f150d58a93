import Verif.Tok
/-
The options of the programs: classdesc.cc:1140-1237, insert-friend.cc:136-154.
-/
namespace Verif.Opt
open Verif.Tok (Str b)

/-- The variables set by options: classdesc.cc:22-31, 1143, 1154-1156. -/
structure Opts where
  workdir : Str := []
  header : Str := []
  path : List Str := [b "."]
  input : Str := b "stdin"
  objc : Bool := false
  overload : Bool := false
  define : Bool := true
  respect : Bool := false
  mbr : Bool := false
  typeName : Bool := false
  onbase : Bool := false
  qt : Bool := false
  deriving DecidableEq, Repr

/-- How the options are left. -/
inductive Exit
  /-- classdesc.cc:1145-1149 -/
  | usage
  /-- "option argument missing" -/
  | missing
  /-- classdesc.cc:1218-1223 -/
  | version
  /-- Going on, the other arguments being the names of descriptors: classdesc.cc:1236-1237. -/
  | go (o : Opts) (descriptors : List Str)
  deriving DecidableEq, Repr

/-- `argv[1]` and so on, with the variables. -/
abbrev St := Opts × List Str

/-- `if (argc>1 && strcmp(argv[1],name)==0) {...; argc--; argv++;}` -/
def flag (name : Str) (f : Opts → Opts) (x : St) : St :=
  if x.2.head? = some name then (f x.1, x.2.tail) else x

/-- The same for an option with an argument: `if (argc<3) {puts("option argument missing"); return 1;}`, `argc-=2; argv+=2;`. -/
def arg (name : Str) (f : Opts → Str → Opts) (x : St) : Except Exit St :=
  if x.2.head? = some name then
    match x.2.tail with
    | [] => .error .missing
    | d :: r => .ok (f x.1 d, r)
  else .ok x

/-- Once through the loop: classdesc.cc:1159-1228. -/
def iter (x : St) : Except Exit St := do
  let x ← arg (b "-workdir") (fun o d => { o with workdir := d ++ b "/" }) x
  let x := flag (b "-objc") (fun o => { o with objc := true }) x
  let x := flag (b "-overload") (fun o => { o with overload := true }) x
  let x ← arg (b "-include") (fun o d => { o with header := d }) x
  let x := flag (b "-nodef") (fun o => { o with define := false }) x
  let x := flag (b "-respect_private") (fun o => { o with respect := true }) x
  let x := flag (b "-use_mbr_pointers") (fun o => { o with mbr := true }) x
  let x ← arg (b "-I") (fun o d => { o with path := o.path ++ [d] }) x
  let x := flag (b "-typeName") (fun o => { o with typeName := true }) x
  let x := flag (b "-onbase") (fun o => { o with onbase := true }) x
  let x ← arg (b "-i") (fun o d => { o with input := d }) x
  if x.2.head? = some (b "-v") then .error .version
  else return flag (b "-qt") (fun o => { o with qt := true }) x

/-- `argc>1 && argv[1][0]=='-'` -/
def more : List Str → Bool
  | [] => false
  | a :: _ => a.head? = some 45

/-- The loop: classdesc.cc:1157.  `none`: not left so far. -/
def loop : Nat → St → Option Exit
  | 0, _ => none
  | n + 1, x =>
    if more x.2 = true then
      match iter x with
      | .error e => some e
      | .ok y => loop n y
    else some (.go x.1 x.2)

/-- The beginning of `main`, up to `n` times through the loop: classdesc.cc:1140-1237. -/
def start (n : Nat) (args : List Str) : Option Exit :=
  if args = [] then some .usage else loop n ({}, args)

/-- The loop of insert-friend, whose body is empty: insert-friend.cc:144-154.  Whether it has been left. -/
def friendStart : Nat → List Str → Bool
  | 0, _ => false
  | n + 1, args => if more args = true then friendStart n args else true

end Verif.Opt
