/-
MPI buffers and the master/slave manager: classdescMP.h.

The MPI library is outside; its collective operations are given the meaning of the MPI standard
(counts and displacements in rank order).  A collective operation of the library is modelled as
one function of the buffers of all processes.
-/
namespace Verif.Mpi

/-- Result of an operation: undefined behaviour is a value of its own. -/
inductive R (α : Type)
  | ok (a : α)
  | ub
  deriving DecidableEq, Repr

def R.bind {α β : Type} : R α → (α → R β) → R β
  | .ok a, f => f a
  | .ub, _ => .ub

/-- `MPIbuf`: classdescMP.h:75-98.  `data` is the contents (m_data, m_size), `pos` the read
position; `offs` the array of nprocs+1 offsets, `none` where it was never written; `ctr` is
offsctr. -/
structure Buf where
  data : List UInt8
  pos : Nat
  offs : List (Option Nat)
  ctr : Nat
  const : Bool
  deriving DecidableEq, Repr

/-- `MPIbuf()`: classdescMP.h:100-105. -/
def Buf.fresh (np : Nat) : Buf := ⟨[], 0, some 0 :: List.replicate np none, 1, false⟩

/-- Packing bytes (packraw of pack_base.h). -/
def Buf.put (b : Buf) (l : List UInt8) : Buf := { b with data := b.data ++ l }

/-- `operator<<(mark)`: classdescMP.h:165-166. The array has nprocs+1 elements. -/
def Buf.mark (b : Buf) : R Buf :=
  if b.ctr < b.offs.length then
    .ok { b with offs := b.offs.set b.ctr (some b.data.length), ctr := b.ctr + 1 }
  else .ub

/-- `reset()`: classdescMP.h:153; sizes and position, not the marks. -/
def Buf.reset (b : Buf) : Buf := { b with data := [], pos := 0 }

/-- Assignment `a=b`, a and b different objects: classdescMP.h:114-124. const_buffer is not
copied; `a`'s new array of offsets holds `b`'s marks and is not initialised beyond them. -/
def Buf.assign (np : Nat) (a b : Buf) : R Buf :=
  if b.ctr ≤ np + 1 then
    .ok { a with
      offs := b.offs.take b.ctr ++ List.replicate (np + 1 - b.ctr) none
      ctr := b.ctr
      data := a.data ++ b.data }
  else .ub

/-- Assignment `a=a`: the array of offsets is deleted before it is copied, so that the new one, which
has no values, is copied to itself (117-120); then `packraw` is given the address of the data, which
are moved to a larger block before they are copied (122, pack_base.h:251-256). -/
def Buf.assignSelf (np : Nat) (a : Buf) : R Buf :=
  if a.ctr ≤ np + 1 then
    if a.data = [] then .ok { a with offs := List.replicate (np + 1) none } else .ub
  else .ub

/-- Copy construction: classdescMP.h:107, assignment to a buffer whose base is empty. -/
def Buf.copy (np : Nat) (b : Buf) : R Buf := Buf.assign np ⟨[], 0, [], 0, false⟩ b

/-- `offsets[i+1]-offsets[i]`, when both have been written and the result is not negative. -/
def size1 (offs : List (Option Nat)) (i : Nat) : R (Nat × Nat) :=
  match offs[i]?, offs[i+1]? with
  | some (some a), some (some b) => if a ≤ b then .ok (a, b - a) else .ub
  | _, _ => .ub

/-- All of them. -/
def sizes (offs : List (Option Nat)) : Nat → Nat → R (List (Nat × Nat))
  | _, 0 => .ok []
  | i, n + 1 => (size1 offs i).bind fun s => (sizes offs (i + 1) n).bind fun r => .ok (s :: r)

/-- MPI_Scatterv: what is at the displacement with the length given. -/
def slices (data : List UInt8) : List (Nat × Nat) → R (List (List UInt8))
  | [] => .ok []
  | (off, n) :: r =>
    if off + n ≤ data.length then (slices data r).bind fun l => .ok ((data.drop off).take n :: l)
    else .ub

/-- Setting offsets[0..np-1] to 0: classdescMP.h:384. -/
def zero (np : Nat) (offs : List (Option Nat)) : List (Option Nat) :=
  List.replicate np (some 0) ++ offs.drop np

/-- `scatter(root)` on all processes: classdescMP.h:360-387. -/
def scatter (root : Nat) (w : List Buf) : R (List Buf) :=
  match w[root]? with
  | none => .ub
  | some r =>
    (sizes r.offs 0 w.length).bind fun sz =>
      (slices r.data sz).bind fun parts =>
        .ok ((List.zipWith (fun (b : Buf) d => { b with data := d }) w parts).modify root
          fun b => { b with offs := zero w.length b.offs })

/-- Writing bytes into memory. -/
def write (mem : List UInt8) (off : Nat) (d : List UInt8) : List UInt8 :=
  mem.take off ++ d ++ mem.drop (off + d.length)

/-- MPI_Gatherv: each contribution is written at the displacement that is the sum of the sizes
before it. -/
def gatherv (mem : List UInt8) (off : Nat) : List (List UInt8) → List UInt8
  | [] => mem
  | d :: r => gatherv (write mem off d) (off + d.length) r

/-- `gather(root)` on all processes, none of which has const_buffer set: classdescMP.h:321-347, 355. -/
def gather (root : Nat) (w : List Buf) : List Buf :=
  let total := (w.map (·.data.length)).sum
  let mem := gatherv (List.replicate total 0) 0 (w.map (·.data))
  (w.map fun b => { b with data := [] }).modify root fun b => { b with data := mem, pos := 0 }

/-- `gather(root)` with const_buffer set on all processes: classdescMP.h:348-355. MPI_Gather puts
the contributions one after the other; m_size becomes the size of the root's own contribution. -/
def gatherConst (root : Nat) (w : List Buf) : R (List Buf) :=
  match w[root]? with
  | none => .ub
  | some r =>
    if w.all (fun b => b.data.length == r.data.length) then
      .ok ((w.map fun b => { b with data := [] }).modify root fun b =>
        { b with data := ((w.map (·.data)).flatten).take r.data.length, pos := 0 })
    else .ub

/-- `bcast(root)`, const_buffer unset: classdescMP.h:305-319. -/
def bcast (root : Nat) (w : List Buf) : R (List Buf) :=
  match w[root]? with
  | none => .ub
  | some r => .ok (w.map fun b => { b with data := r.data, pos := 0 })

/-! ### Master and slaves -/

/-- A request carries a number identifying it; `reply` says whether the method answers (the slave
sends its buffer back only if the method made it a message: classdescMP.h:462-468). -/
structure Req where
  id : Nat
  reply : Bool
  deriving DecidableEq, Repr

/-- The system: the master's idle list (classdescMP.h:405), requests sent and not yet processed,
replies sent and not yet received, each with the slave's rank. -/
structure Sys where
  idle : List Nat
  queue : List (Nat × Req)
  replies : List (Nat × Nat)
  deriving DecidableEq, Repr

/-- `init()`: classdescMP.h:444. -/
def init (np : Nat) : Sys := ⟨(List.range np).drop 1, [], []⟩

/-- `all_idle()`: classdescMP.h:425. -/
def allIdle (np : Nat) (s : Sys) : Bool := s.idle.length == np - 1

inductive Act
  | exec (r : Req)      -- classdescMP.h:421; the list must not be empty
  | serve (i : Nat)     -- a slave processes the i-th request: classdescMP.h:458-468
  | receive (i : Nat)   -- get_returnv() receives the i-th reply: classdescMP.h:423
  | bcast (np : Nat) (r : Req) -- classdescMP.h:470-476
  deriving DecidableEq, Repr

/-- One step, if it can happen. -/
def step (s : Sys) : Act → Option Sys
  | .exec r =>
    match s.idle.getLast? with
    | none => none
    | some p => some { s with idle := s.idle.dropLast, queue := s.queue ++ [(p, r)] }
  | .serve i =>
    match s.queue[i]? with
    | none => none
    | some (p, r) =>
      some { s with
        queue := s.queue.eraseIdx i
        replies := if r.reply then s.replies ++ [(p, r.id)] else s.replies }
  | .receive i =>
    match s.replies[i]? with
    | none => none
    | some (p, _) => some { s with idle := s.idle ++ [p], replies := s.replies.eraseIdx i }
  | .bcast np r =>
    some { s with queue := s.queue ++ ((List.range np).drop 1).map fun p => (p, r) }

def run : Sys → List Act → Option Sys
  | s, [] => some s
  | s, a :: as => (step s a).bind fun s => run s as

end Verif.Mpi
