import Verif.Graph
/-
Model of the treenode protocol, pack_graph.h:26-56: pointers are followed without remembering what has been seen.

As in `Verif.Graph` the stream is a list of numbers. The packer works on a heap `G` of objects; the unpacker allocates a new object
for every pointer it reads, so what it builds is represented as a tree.
-/
namespace Verif.Tree
open Verif.Graph

/-- A pointer and everything behind it. `wild` is a pointer that was never assigned. -/
inductive T
  | nil
  | wild
  | data (n : Nat)
  | vec (ts : List T)
  | node (fs : List T)

/-- Packing a list of pointers, one after the other (pack_stl.h:110-111). -/
def packAll (f : Option Nat → Option (List Nat)) : List (Option Nat) → Option (List Nat)
  | [] => some []
  | p :: ps => (f p).bind fun a => (packAll f ps).bind fun b => some (a ++ b)

/-- Packing the members in declaration order. -/
def packMem (f : Option Nat → Option (List Nat)) : List Fld → Option (List Nat)
  | [] => some []
  | .data n :: fs => (packMem f fs).bind fun b => some (n :: b)
  | .ptr p :: fs => (f p).bind fun a => (packMem f fs).bind fun b => some (a ++ b)
  | .vec ps :: fs => (packAll f ps).bind fun a => (packMem f fs).bind fun b => some (ps.length :: (a ++ b))

/-- pack(is_treenode), pack_graph.h:28-39; `none`: more than `fuel` nested calls. -/
def packT (G : Nat → List Fld) : Nat → Option Nat → Option (List Nat)
  | 0, _ => none
  | _ + 1, none => some [0]
  | fuel + 1, some a => (packMem (packT G fuel) (G a)).bind fun b => some (1 :: b)

/-- Reading `n` elements of a vector of pointers through an uninitialised local, pack_stl.h:124-129. -/
def unpackAll (f : T → List Nat → Out (T × List Nat)) : Nat → List Nat → Out (List T × List Nat)
  | 0, i => .ok ([], i)
  | n + 1, i => (f .wild i).bind fun (t, i) => (unpackAll f n i).bind fun (ts, i) => .ok (t :: ts, i)

/-- Reading the members of a new object; `ctor` is what the constructor of the node class leaves in its pointer members. -/
def unpackMem (ctor : T) (f : T → List Nat → Out (T × List Nat)) : List Kind → List Nat → Out (List T × List Nat)
  | [], i => .ok ([], i)
  | .data :: ks, i => match i with
    | [] => .throw
    | n :: i => (unpackMem ctor f ks i).bind fun (ts, i) => .ok (.data n :: ts, i)
  | .ptr :: ks, i => (f ctor i).bind fun (t, i) => (unpackMem ctor f ks i).bind fun (ts, i) => .ok (t :: ts, i)
  | .vec :: ks, i => match i with
    | [] => .throw
    | n :: i => (unpackAll f n i).bind fun (l, i) => (unpackMem ctor f ks i).bind fun (ts, i) => .ok (.vec l :: ts, i)

/-- unpack(is_treenode), pack_graph.h:44-56; `old` is the destination pointer before the call: with `valid == 0` it is not assigned. -/
def unpackT (sh : List Kind) (ctor : T) : Nat → T → List Nat → Out (T × List Nat)
  | 0, _, _ => .fuel
  | fuel + 1, old, i => match i with
    | [] => .throw
    | valid :: i => if valid = 0 then .ok (old, i)
      else (unpackMem ctor (unpackT sh ctor fuel) sh i).bind fun (fs, i) => .ok (.node fs, i)

end Verif.Tree
