/-
Model of graph serialisation: pack_graph / unpack_graph, pack_graph.h:84-164.

The stream is a list of numbers: one entry per fundamental value (IDs, recur_max, payload, vector sizes); how these become
bytes is the subject of `Verif.Codec`. Integer overflow of IDs is not modelled.
-/
namespace Verif.Graph

/-- A serialised member of a node. Addresses are numbers; `none` is the null pointer. -/
inductive Fld
  | data (n : Nat)
  | ptr (p : Option Nat)
  | vec (ps : List (Option Nat))
deriving DecidableEq, Repr

inductive Kind | data | ptr | vec
deriving DecidableEq, Repr

def Fld.kind : Fld → Kind
  | data _ => .data
  | ptr _ => .ptr
  | vec _ => .vec

/-! ### Packing -/

/-- The static variables of `pack_graph<T>` and the stream, pack_graph.h:86-89. `map` lists the objects with an ID in order
(the ID of the i-th, from 0, is i+1); `restart` has the top of the stack first and holds the pointers stored in the
referenced locations (packing does not change them). `deep` records the largest number of simultaneous activations. -/
structure PSt where
  map : List Nat
  restart : List (Option Nat)
  out : List Nat
  deep : Nat
deriving DecidableEq, Repr

def PSt.emit (st : PSt) (n : Nat) : PSt := { st with out := st.out ++ [n] }

/-- Packing the elements of a vector of pointers, pack_stl.h:110-111. -/
def packVec (f : Option Nat → PSt → Option PSt) : List (Option Nat) → PSt → Option PSt
  | [], st => some st
  | p :: ps, st => (f p st).bind (packVec f ps)

/-- Packing the members of a node in declaration order (generated descriptor); `f` packs a pointer. -/
def packFields (f : Option Nat → PSt → Option PSt) : List Fld → PSt → Option PSt
  | [], st => some st
  | .data n :: fs, st => packFields f fs (st.emit n)
  | .ptr p :: fs, st => (f p st).bind (packFields f fs)
  | .vec ps :: fs, st => (packVec f ps (st.emit ps.length)).bind (packFields f fs)

/-- The body of `pack_graph`, pack_graph.h:93-109, entered with `recur_level = lvl`; the result is `none` when the fuel (a bound on
the recursion depth) is used up. `G` gives the members of the object at an address, `rmax` is `recur_max`,
`nd` the number of activations including this one. -/
def packPtr (G : Nat → List Fld) (rmax : Nat) : Nat → Nat → Nat → Option Nat → PSt → Option PSt
  | 0, _, _, _, _ => none
  | fuel + 1, nd, lvl, p, st0 =>
    let st := { st0 with deep := max st0.deep nd }
    if lvl + 1 = rmax then some { st with restart := p :: st.restart }
    else match p with
      | none => some (st.emit 0)
      | some a =>
        match st.map.idxOf? a with
        | some i => some (st.emit (i + 1))
        | none => packFields (packPtr G rmax fuel (nd + 1) (lvl + 1)) (G a)
            ({ st with map := st.map ++ [a] }.emit (st.map.length + 1))

/-- `while (restart.size()) {...}`, pack_graph.h:113-118. -/
def packLoop (f : Option Nat → PSt → Option PSt) : Nat → PSt → Option PSt
  | k, st => match st.restart with
    | [] => some st
    | p :: rs => match k with
      | 0 => none
      | k + 1 => (f p { st with restart := rs }).bind (packLoop f k)

/-- `pack_graph` called with `recur_level = 0`, pack_graph.h:84-120: from the user or from a restart. -/
def packRoot (G : Nat → List Fld) (rmax F : Nat) : Nat → Nat → Option Nat → PSt → Option PSt
  | 0, _, _, _ => none
  | k + 1, nd, p, st =>
    (packPtr G rmax F nd 0 p (st.emit rmax)).bind fun st1 =>
      (packLoop (packRoot G rmax F k (nd + 1)) k st1).bind fun st2 => some { st2 with map := [] }

/-! ### Unpacking -/

/-- A location holding a pointer: the user's, a member of an allocated object, or a local variable of `unpackSequence`
(pack_stl.h:126), which does not outlive the element. -/
inductive Slot
  | root
  | cell (i j : Nat)
  | loc
deriving DecidableEq, Repr

/-- Static variables of `unpack_graph<T>`, the stream, the allocated objects in order (address = position), and the user's pointer. -/
structure USt where
  inp : List Nat
  heap : List (List Fld)
  map : List (Nat × Nat)
  restart : List Slot
  rootv : Option Nat
deriving DecidableEq, Repr

/-- Outcome: `fuel` is not a result of the code. -/
inductive Out (α : Type)
  | ok (a : α)
  | throw
  | ub
  | fuel
deriving DecidableEq, Repr

def Out.bind {α β} : Out α → (α → Out β) → Out β
  | .ok a, f => f a
  | .throw, _ => .throw
  | .ub, _ => .ub
  | .fuel, _ => .fuel

/-- Read one value. -/
def USt.read (st : USt) : Out (Nat × USt) := match st.inp with
  | [] => .throw
  | n :: r => .ok (n, { st with inp := r })

/-- Reading `n` elements of a vector of pointers through a local, pack_stl.h:124-129. `junk` is what an unassigned pointer holds. -/
def unpackVec (junk : Option Nat) (f : Slot → USt → Out (Option (Option Nat) × USt)) : Nat → USt → Out (List (Option Nat) × USt)
  | 0, st => .ok ([], st)
  | n + 1, st => (f .loc st).bind fun (v, st) => (unpackVec junk f n st).bind fun (vs, st) => .ok (v.getD junk :: vs, st)

/-- Unpacking the members of the object `a` from the `j`-th on. The members are stored when all have been read; a deferred pointer
holds `junk` until its restart. -/
def unpackFields (junk : Option Nat) (f : Slot → USt → Out (Option (Option Nat) × USt)) (a : Nat) :
    Nat → List Kind → USt → Out (List Fld × USt)
  | _, [], st => .ok ([], st)
  | j, .data :: ks, st => st.read.bind fun (n, st) =>
      (unpackFields junk f a (j + 1) ks st).bind fun (fs, st) => .ok (.data n :: fs, st)
  | j, .ptr :: ks, st => (f (.cell a j) st).bind fun (v, st) =>
      (unpackFields junk f a (j + 1) ks st).bind fun (fs, st) => .ok (.ptr (v.getD junk) :: fs, st)
  | j, .vec :: ks, st => st.read.bind fun (n, st) => (unpackVec junk f n st).bind fun (vs, st) =>
      (unpackFields junk f a (j + 1) ks st).bind fun (fs, st) => .ok (.vec vs :: fs, st)

/-- The body of `unpack_graph`, pack_graph.h:136-151. The value assigned to `arg` is returned (`none` if deferred) and stored by the
caller. `sh` lists the kinds of the members of the node class. -/
def unpackPtr (sh : List Kind) (junk : Option Nat) (rmax : Nat) : Nat → Nat → Slot → USt → Out (Option (Option Nat) × USt)
  | 0, _, _, _ => .fuel
  | fuel + 1, lvl, slot, st =>
    if lvl + 1 = rmax then .ok (none, { st with restart := slot :: st.restart })
    else st.read.bind fun (id, st) =>
      if id = 0 then .ok (some none, st)
      else match st.map.lookup id with
        | some a => .ok (some (some a), st)
        | none =>
          let a := st.heap.length
          (unpackFields junk (unpackPtr sh junk rmax fuel (lvl + 1)) a 0 sh
            { st with heap := st.heap ++ [[]], map := (id, a) :: st.map }).bind fun (fs, st) =>
              .ok (some (some a), { st with heap := st.heap.set a fs })

/-- Store a pointer. -/
def USt.assign (st : USt) (s : Slot) (v : Option Nat) : USt := match s with
  | .root => { st with rootv := v }
  | .cell i j => { st with heap := st.heap.modify i (·.set j (.ptr v)) }
  | .loc => st

/-- `while (restart.size()) {...}`, pack_graph.h:155-160. A restart through a dead local is undefined. -/
def unpackLoop (f : Slot → USt → Out USt) : Nat → USt → Out USt
  | k, st => match st.restart with
    | [] => .ok st
    | s :: rs => match k with
      | 0 => .fuel
      | k + 1 => if s = .loc then .ub else (f s { st with restart := rs }).bind (unpackLoop f k)

/-- `unpack_graph` called with `recur_level = 0`, pack_graph.h:123-164; `recur_max` is taken from the stream. -/
def unpackRoot (sh : List Kind) (junk : Option Nat) (F : Nat) : Nat → Slot → USt → Out USt
  | 0, _, _ => .fuel
  | k + 1, slot, st => st.read.bind fun (rmax, st) =>
    (unpackPtr sh junk rmax F 0 slot st).bind fun (v, st) =>
      let st := match v with
        | none => st
        | some w => st.assign slot w
      (unpackLoop (unpackRoot sh junk F k) k st).bind fun st => .ok { st with map := [] }

end Verif.Graph
