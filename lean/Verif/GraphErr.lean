import Verif.Graph
/-
The static variables of `pack_graph<T>` and `unpack_graph<T>` (pack_graph.h:84-164), which outlive the call, and with it an
exception: `recur_level`, `graph_map` and `restart` are those the last call has left behind, whatever buffer that was for.

Values, pointers and objects as in Verif.Graph.
-/
namespace Verif.GraphErr
open Verif.Graph (Fld Kind Slot)

/-! ### Unpacking -/

/-- The buffer in use (what is left of it, and `recur_max`), the objects allocated so far, the user's pointer, and the static
variables of `unpack_graph<T>`, pack_graph.h:125-127. -/
structure USt where
  inp : List Nat
  rmax : Nat
  heap : List (List Fld)
  rootv : Option Nat
  level : Nat
  map : List (Nat × Nat)
  restart : List Slot
  deriving DecidableEq, Repr

/-- How a call ends: with a value; with an exception, in a state; with undefined behaviour.  `fuel`: the bound on the model's recursion has
been reached. -/
inductive Res (σ α : Type)
  | ok (a : α) (st : σ)
  | throw (st : σ)
  | ub
  | fuel
  deriving DecidableEq, Repr

def Res.bind {σ α β : Type} : Res σ α → (α → σ → Res σ β) → Res σ β
  | .ok a st, f => f a st
  | .throw st, _ => .throw st
  | .ub, _ => .ub
  | .fuel, _ => .fuel

/-- Read one value; at the end of the data it throws (pack_base.h, C02). -/
def read (st : USt) : Res USt Nat :=
  match st.inp with
  | [] => .throw st
  | n :: r => .ok n { st with inp := r }

/-- Elements of a vector of pointers, through a local variable: pack_stl.h:124-129. -/
def unpackVec (junk : Option Nat) (f : Slot → USt → Res USt (Option (Option Nat))) : Nat → USt → Res USt (List (Option Nat))
  | 0, st => .ok [] st
  | n + 1, st => (f .loc st).bind fun v st => (unpackVec junk f n st).bind fun vs st => .ok (v.getD junk :: vs) st

/-- The members of object `a` from the `j`-th on, in order of declaration; they are stored when all have been read. -/
def unpackFields (junk : Option Nat) (f : Slot → USt → Res USt (Option (Option Nat))) (a : Nat) :
    Nat → List Kind → USt → Res USt (List Fld)
  | _, [], st => .ok [] st
  | j, .data :: ks, st => (read st).bind fun n st =>
      (unpackFields junk f a (j + 1) ks st).bind fun fs st => .ok (.data n :: fs) st
  | j, .ptr :: ks, st => (f (.cell a j) st).bind fun v st =>
      (unpackFields junk f a (j + 1) ks st).bind fun fs st => .ok (.ptr (v.getD junk) :: fs) st
  | j, .vec :: ks, st => (read st).bind fun n st => (unpackVec junk f n st).bind fun vs st =>
      (unpackFields junk f a (j + 1) ks st).bind fun fs st => .ok (.vec vs :: fs) st

/-- Store a pointer. -/
def assign (st : USt) (s : Slot) (v : Option Nat) : USt :=
  match s with
  | .root => { st with rootv := v }
  | .cell i j => { st with heap := st.heap.modify i (·.set j (.ptr v)) }
  | .loc => st

/-- `while (restart.size())`: pack_graph.h:155-160; a restart through a local variable that is gone is undefined. -/
def unpackLoop (f : Slot → USt → Res USt (Option (Option Nat))) : Nat → USt → Res USt Unit
  | k, st =>
    match st.restart with
    | [] => .ok () st
    | s :: rs =>
      match k with
      | 0 => .fuel
      | k + 1 => if s = .loc then .ub else (f s { st with restart := rs }).bind fun _ st => unpackLoop f k st

/-- `if (recur_level==0) unpack(buf,string(),buf.recur_max); recur_level++;`: pack_graph.h:131-133. -/
def enter (st : USt) : Res USt Unit :=
  if st.level = 0 then (read st).bind fun n st => .ok () { st with rmax := n, level := st.level + 1 }
  else .ok () { st with level := st.level + 1 }

/-- `recur_level--` at the outermost level, the value having been stored: pack_graph.h:139-152. -/
def leave (slot : Slot) (v : Option (Option Nat)) (st : USt) : USt :=
  match v with
  | none => { st with level := st.level - 1 }
  | some w => assign { st with level := st.level - 1 } slot w

/-- `unpack_graph`: pack_graph.h:122-164.  The value given to `arg` (`none`: it is deferred) is returned; the caller stores it,
except at the outermost level, where it is stored before the restarts. -/
def unpackG (sh : List Kind) (junk : Option Nat) : Nat → Slot → USt → Res USt (Option (Option Nat))
  | 0, _, _ => .fuel
  | fuel + 1, slot, st =>
    (enter st).bind fun _ st =>
    (if st.level = st.rmax then .ok none { st with restart := slot :: st.restart }
     else (read st).bind fun id st =>
       if id = 0 then .ok (some none) st
       else
         match st.map.lookup id with
         | some a => .ok (some (some a)) st
         | none =>
           (unpackFields junk (unpackG sh junk fuel) st.heap.length 0 sh
             { st with heap := st.heap ++ [[]], map := (id, st.heap.length) :: st.map }).bind fun fs st' =>
               .ok (some (some st.heap.length)) { st' with heap := st'.heap.set st.heap.length fs }).bind fun v st =>
    if st.level - 1 = 0 then
      (unpackLoop (unpackG sh junk fuel) fuel
        (leave slot v st)).bind fun _ st => .ok v { st with map := [] }
    else .ok v { st with level := st.level - 1 }

/-- The user unpacks a pointer from a buffer: what is in the buffer, its `recur_max`. -/
def user (sh : List Kind) (junk : Option Nat) (fuel : Nat) (st : USt) : Res USt (Option (Option Nat)) :=
  unpackG sh junk fuel .root st

/-- Another buffer is used: what is in it, and its `recur_max` (pack_base.h:166, 216-219: 500 unless told otherwise). -/
def USt.other (st : USt) (inp : List Nat) (rmax : Nat) : USt := { st with inp := inp, rmax := rmax }

/-! ### Packing -/

/-- The buffer written to, and the static variables of `pack_graph<T>`, pack_graph.h:86-88; objects in `map` in the order of their
numbers, from 1. -/
structure PSt where
  out : List Nat
  level : Nat
  map : List Nat
  restart : List (Option Nat)
  deriving DecidableEq, Repr

/-- A value written: `bad` says when that throws (no memory, no space in the file, or what is thrown by a member's own `pack`). -/
def write (bad : List Nat → Nat → Bool) (n : Nat) (st : PSt) : Res PSt Unit :=
  if bad st.out n then .throw st else .ok () { st with out := st.out ++ [n] }

def packVec (f : Option Nat → PSt → Res PSt Unit) : List (Option Nat) → PSt → Res PSt Unit
  | [], st => .ok () st
  | p :: ps, st => (f p st).bind fun _ st => packVec f ps st

/-- The members of an object, in order of declaration. -/
def packFields (bad : List Nat → Nat → Bool) (f : Option Nat → PSt → Res PSt Unit) : List Fld → PSt → Res PSt Unit
  | [], st => .ok () st
  | .data n :: fs, st => (write bad n st).bind fun _ st => packFields bad f fs st
  | .ptr p :: fs, st => (f p st).bind fun _ st => packFields bad f fs st
  | .vec ps :: fs, st => (write bad ps.length st).bind fun _ st => (packVec f ps st).bind fun _ st => packFields bad f fs st

/-- `while (restart.size())`: pack_graph.h:113-118. -/
def packLoop (f : Option Nat → PSt → Res PSt Unit) : Nat → PSt → Res PSt Unit
  | k, st =>
    match st.restart with
    | [] => .ok () st
    | p :: rs =>
      match k with
      | 0 => .fuel
      | k + 1 => (f p { st with restart := rs }).bind fun _ st => packLoop f k st

/-- `pack_graph`: pack_graph.h:83-120. -/
def packG (G : Nat → List Fld) (rmax : Nat) (bad : List Nat → Nat → Bool) : Nat → Option Nat → PSt → Res PSt Unit
  | 0, _, _ => .fuel
  | fuel + 1, p, st =>
    (if st.level = 0 then write bad rmax st else .ok () st).bind fun _ st =>
    (if st.level + 1 = rmax then .ok () { st with level := st.level + 1, restart := p :: st.restart }
     else
       match p with
       | none => write bad 0 { st with level := st.level + 1 }
       | some a =>
         match st.map.idxOf? a with
         | some i => write bad (i + 1) { st with level := st.level + 1 }
         | none => (write bad (st.map.length + 1) { st with level := st.level + 1, map := st.map ++ [a] }).bind fun _ st =>
             packFields bad (packG G rmax bad fuel) (G a) st : Res PSt Unit).bind fun _ st =>
    if st.level - 1 = 0 then
      (packLoop (packG G rmax bad fuel) fuel { st with level := st.level - 1 }).bind fun _ st => .ok () { st with map := [] }
    else .ok () { st with level := st.level - 1 }

end Verif.GraphErr
