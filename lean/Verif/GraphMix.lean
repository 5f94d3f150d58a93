/-
Graphs whose nodes are of more than one class: pack_graph.h:83-164.  The static variables exist once for each class of pointers, so that
each class has its own table and its own level of recursion.

The stream is a list of numbers, as in `Verif.Graph`.  A call that reaches the recursion limit is not followed (`none`).
-/
namespace Verif.GraphMix

/-- A serialised member of a node: data, or a pointer to class `c`. -/
inductive Fld
  | data (n : Nat)
  | ptr (c : Nat) (p : Option Nat)
  deriving DecidableEq, Repr

inductive Kind
  | data
  | ptr (c : Nat)
  deriving DecidableEq, Repr

def Fld.kind : Fld → Kind
  | data _ => .data
  | ptr c _ => .ptr c

/-- How many calls there are for each class (`recur_level`, put back when a call returns). -/
abbrev Levels := Nat → Nat

def Levels.up (lv : Levels) (c : Nat) : Levels := fun d => if d = c then lv d + 1 else lv d

/-! ### Packing -/

/-- `graph_map` of each class, in order of the IDs, and the stream. -/
structure PSt where
  map : Nat → List Nat
  out : List Nat

def PSt.emit (st : PSt) (n : Nat) : PSt := { st with out := st.out ++ [n] }

def PSt.add (st : PSt) (c a : Nat) : PSt := { st with map := fun d => if d = c then st.map d ++ [a] else st.map d }

def PSt.clear (st : PSt) (c : Nat) : PSt := { st with map := fun d => if d = c then [] else st.map d }

/-- The members of a node, in order of declaration. -/
def packFields (f : Nat → Option Nat → PSt → Option PSt) : List Fld → PSt → Option PSt
  | [], st => some st
  | .data n :: fs, st => packFields f fs (st.emit n)
  | .ptr c p :: fs, st => (f c p st).bind (packFields f fs)

/-- pack_graph.h:97-107, entered with the levels `lv` (the call itself being counted). -/
def packBody (G : Nat → Nat → List Fld) (f : Nat → Option Nat → PSt → Option PSt) (c : Nat) (p : Option Nat) (st : PSt) : Option PSt :=
  match p with
  | none => some (st.emit 0)
  | some a =>
    match (st.map c).idxOf? a with
    | some i => some (st.emit (i + 1))
    | none => packFields f (G c a) ((st.add c a).emit ((st.map c).length + 1))

/-- `pack_graph`: pack_graph.h:83-121.  `fuel` bounds the depth. -/
def packPtr (G : Nat → Nat → List Fld) (rmax : Nat) : Nat → Levels → Nat → Option Nat → PSt → Option PSt
  | 0, _, _, _, _ => none
  | fuel + 1, lv, c, p, st =>
    if lv c + 1 = rmax then none
    else
      (packBody G (packPtr G rmax fuel (lv.up c)) c p (if lv c = 0 then st.emit rmax else st)).map fun st =>
        if lv c = 0 then st.clear c else st

/-- From the user. -/
def pack (G : Nat → Nat → List Fld) (rmax fuel c : Nat) (p : Option Nat) : Option (List Nat) :=
  (packPtr G rmax fuel (fun _ => 0) c p ⟨fun _ => [], []⟩).map (·.out)

/-! ### Unpacking -/

/-- The stream and `recur_max` of the buffer, the class of each object allocated, their members, and `graph_map` of each class. -/
structure USt where
  inp : List Nat
  rmax : Nat
  cls : List Nat
  cell : Nat → List Fld
  map : Nat → Nat → Option Nat

def read (st : USt) : Option (Nat × USt) :=
  match st.inp with
  | [] => none
  | n :: r => some (n, { st with inp := r })

/-- `alloc(buf,arg); graph_map[myid]=arg;` -/
def USt.alloc (st : USt) (c id : Nat) : USt :=
  { st with cls := st.cls ++ [c], map := fun d i => if d = c ∧ i = id then some st.cls.length else st.map d i }

def USt.store (st : USt) (a : Nat) (fs : List Fld) : USt := { st with cell := fun b => if b = a then fs else st.cell b }

def USt.clear (st : USt) (c : Nat) : USt := { st with map := fun d i => if d = c then none else st.map d i }

def unpackFields (f : Nat → USt → Option (Option Nat × USt)) : List Kind → USt → Option (List Fld × USt)
  | [], st => some ([], st)
  | .data :: ks, st => (read st).bind fun x => (unpackFields f ks x.2).map fun y => (.data x.1 :: y.1, y.2)
  | .ptr c :: ks, st => (f c st).bind fun x => (unpackFields f ks x.2).map fun y => (.ptr c x.1 :: y.1, y.2)

/-- pack_graph.h:138-149.  The members are stored when all have been read. -/
def unpackBody (K : Nat → List Kind) (f : Nat → USt → Option (Option Nat × USt)) (c : Nat) (st : USt) : Option (Option Nat × USt) :=
  (read st).bind fun x =>
    if x.1 = 0 then some (none, x.2)
    else
      match x.2.map c x.1 with
      | some a => some (some a, x.2)
      | none => (unpackFields f (K c) (x.2.alloc c x.1)).map fun y => (some x.2.cls.length, y.2.store x.2.cls.length y.1)

/-- `unpack_graph`: pack_graph.h:123-164. -/
def unpackPtr (K : Nat → List Kind) : Nat → Levels → Nat → USt → Option (Option Nat × USt)
  | 0, _, _, _ => none
  | fuel + 1, lv, c, st =>
    (if lv c = 0 then (read st).map fun x => { x.2 with rmax := x.1 } else some st).bind fun st =>
      if lv c + 1 = st.rmax then none
      else
        (unpackBody K (unpackPtr K fuel (lv.up c)) c st).map fun y => (y.1, if lv c = 0 then y.2.clear c else y.2)

/-- From the user.  `rmax` is the limit of the buffer before. -/
def unpack (K : Nat → List Kind) (rmax fuel c : Nat) (inp : List Nat) : Option (Option Nat × USt) :=
  unpackPtr K fuel (fun _ => 0) c ⟨inp, rmax, [], fun _ => [], fun _ _ => none⟩

end Verif.GraphMix
