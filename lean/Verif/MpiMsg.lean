/-
Messages between processes: `MPIbuf::send`, `isend`, `get`, `send_recv`, `wait`, `sent` and `MPIbuf_array`, classdescMP.h.

The MPI library is outside; it does what its standard says.  Messages from one process to another do not overtake each other; a receive with
a pattern takes the first message of some process that matches; a buffer given to a send that has not completed may not be written or freed.
Sends do not block (the library may buffer them), so nothing is said about deadlocks caused by sends.
-/
namespace Verif.MpiMsg

abbrev Bytes := List UInt8

/-- A message under way.  That of an asynchronous send has the bytes there were at the call: changing them is undefined behaviour below. -/
structure Msg where
  src : Nat
  tag : Nat
  data : Bytes
  deriving DecidableEq, Repr

/-- `MPIbuf`: classdescMP.h:75-98.  `data` are the bytes up to m_size, `req` is the request (`none`: MPI_REQUEST_NULL). -/
structure Buf where
  data : Bytes
  pos : Nat
  proc : Nat
  tag : Nat
  req : Option Nat
  deriving DecidableEq, Repr

/-- `MPIbuf()`: classdescMP.h:100-105; proc and tag are not initialised, here 0. -/
def Buf.fresh : Buf := ⟨[], 0, 0, 0, none⟩

/-- All processes: the buffers of each, requests not completed with the buffers they belong to, the number of the next request, and the messages
that have been sent to each, in the order in which they were sent. -/
structure World where
  buf : Nat → Nat → Buf
  live : Nat → List (Nat × Nat)
  next : Nat → Nat
  inbox : Nat → List Msg

def start : World := ⟨fun _ _ => .fresh, fun _ => [], fun _ => 0, fun _ => []⟩

/-- What comes of a call.  `blocked`: it does not return yet.  `bad`: undefined behaviour, or the MPI library ends the program. -/
inductive Out
  | ok (w : World)
  | blocked
  | bad

def setBuf (w : World) (p b : Nat) (x : Buf) : World :=
  { w with buf := fun q c => if q = p ∧ c = b then x else w.buf q c }

def setInbox (w : World) (q : Nat) (l : List Msg) : World := { w with inbox := fun r => if r = q then l else w.inbox r }

def setLive (w : World) (p : Nat) (l : List (Nat × Nat)) : World := { w with live := fun r => if r = p then l else w.live r }

/-- The library may still read the memory of the buffer. -/
def pending (w : World) (p b : Nat) : Bool := (w.live p).any (·.2 == b)

/-- Packing (packraw, pack_base.h:251-262): the memory is reallocated and written. -/
def put (p b : Nat) (xs : Bytes) (w : World) : Out :=
  if xs = [] then .ok w
  else if pending w p b then .bad
  else .ok (setBuf w p b { w.buf p b with data := (w.buf p b).data ++ xs })

/-- `reset()`: classdescMP.h:151. -/
def reset (p b : Nat) (w : World) : Out := .ok (setBuf w p b { w.buf p b with data := [], pos := 0, tag := 1 })

/-- The message is under way. -/
def post (src dst tag : Nat) (xs : Bytes) (w : World) : World := setInbox w dst (w.inbox dst ++ [⟨src, tag, xs⟩])

/-- `send`: classdescMP.h:251-255. -/
def send (np p b dst tag : Nat) (w : World) : Out :=
  if dst = p then .ok w
  else if np ≤ dst then .bad
  else .ok (setBuf (post p dst tag (w.buf p b).data w) p b { w.buf p b with data := [] })

/-- `isend`: classdescMP.h:257-261.  The request overwrites that of the buffer. -/
def isend (np p b dst tag : Nat) (w : World) : Out :=
  if dst = p then .ok w
  else if np ≤ dst then .bad
  else
    let w1 := setLive (post p dst tag (w.buf p b).data w) p ((w.next p, b) :: w.live p)
    .ok { setBuf w1 p b { w.buf p b with data := [], req := some (w.next p) } with
          next := fun r => if r = p then w.next p + 1 else w.next r }

/-- A receive matches a message of process `c`. -/
def fits (c : Nat) (tag : Option Nat) (m : Msg) : Bool := m.src == c && (tag.isNone || tag == some m.tag)

/-- The first message that matches, and the others. -/
def takeFirst (f : Msg → Bool) : List Msg → Option (Msg × List Msg)
  | [] => none
  | m :: l => if f m then some (m, l) else (takeFirst f l).map fun x => (x.1, m :: x.2)

/-- `MPI_Recv` of `n` bytes from process `c`: a longer message is an error, and of a shorter one the rest of the memory is indeterminate. -/
def recv (q c : Nat) (tag : Option Nat) (n : Nat) (w : World) : Option (Option (Msg × World)) :=
  match takeFirst (fits c tag) (w.inbox q) with
  | none => none
  | some (m, l) => some (if m.data.length = n then some (m, setInbox w q l) else none)

/-- `get(src,tag)`: classdescMP.h:263-276.  The message of process `c` is found by MPI_Probe; then, before MPI_Recv is called, `more` messages
arrive. -/
def getLate (q b : Nat) (src tag : Option Nat) (c : Nat) (more : List Msg) (w : World) : Out :=
  if src.isSome ∧ src ≠ some c then .blocked
  else match (w.inbox q).find? (fits c tag) with
    | none => .blocked
    | some s =>
      if pending w q b then .bad
      else match recv q s.src (some s.tag) s.data.length (setInbox w q (w.inbox q ++ more)) with
        | none => .blocked
        | some none => .bad
        | some (some (m, w)) => .ok (setBuf w q b { w.buf q b with data := m.data, pos := 0, proc := s.src, tag := s.tag })

/-- The same if nothing arrives; C113_atomic shows that this is enough. -/
def get (q b : Nat) (src tag : Option Nat) (c : Nat) (w : World) : Out := getLate q b src tag c [] w

/-- `msg_waiting(src,tag)`: classdescMP.h:389-395. -/
def msgWaiting (q : Nat) (src tag : Option Nat) (w : World) : Bool :=
  (w.inbox q).any fun m => (src.isNone || src == some m.src) && (tag.isNone || tag == some m.tag)

/-- `send_recv`, the first half: classdescMP.h:285-291.  The buffer is kept until the message has been received. -/
def srStart (np p b dst tag : Nat) (w : World) : Out :=
  if dst = p then .ok w
  else if np ≤ dst then .bad
  else .ok (post p dst tag (w.buf p b).data w)

/-- `send_recv`, the rest: classdescMP.h:292-303.  The probe is made with the tag of the message sent, and the choice of processes is made
twice: `c` when probing, `d` when receiving.  The status of the receive is overwritten by that of MPI_Wait for the message sent, in which
source and tag are undefined: `x` and `y`. -/
def srEnd (p b dst stag : Nat) (src rtag : Option Nat) (c d x y : Nat) (w : World) : Out :=
  if dst = p then .ok w
  else if src.isSome ∧ (src ≠ some c ∨ src ≠ some d) then .blocked
  else match (w.inbox p).find? (fits c (some stag)) with
    | none => .blocked
    | some s => match recv p d rtag s.data.length w with
      | none => .blocked
      | some none => .bad
      | some (some (m, w)) =>
        if pending w p b then .bad
        else .ok (setBuf w p b { w.buf p b with data := m.data, pos := 0, proc := x, tag := y })

/-- `wait()`: classdescMP.h:130; a request that has been completed elsewhere is no longer valid. -/
def wait (p b : Nat) (w : World) : Out :=
  match (w.buf p b).req with
  | none => .ok w
  | some h =>
    if (w.live p).any (·.1 == h) then
      .ok (setBuf (setLive w p ((w.live p).filter (·.1 != h))) p b { w.buf p b with req := none })
    else .bad

/-- `sent()`: classdescMP.h:128; `flag` is what it finds, which is true for MPI_REQUEST_NULL. -/
def sent (p b : Nat) (flag : Bool) (w : World) : Out :=
  match (w.buf p b).req with
  | none => if flag then .ok w else .blocked
  | some h =>
    if (w.live p).any (·.1 == h) then (if flag then wait p b w else .ok w)
    else .bad

/-- The six calls of `MPIbuf_array` on the buffers `bs`: classdescMP.h:185-231.  The requests are copied, those of the buffers `cs` are
completed, and the buffers keep theirs.  waitall completes all, waitany one, waitsome some, the tests those found completed. -/
def multi (p : Nat) (bs cs : List Nat) (w : World) : Out :=
  if bs.all (fun b => match (w.buf p b).req with
      | none => true
      | some h => (w.live p).any (·.1 == h)) then
    .ok (setLive w p ((w.live p).filter fun x => !(cs.any fun b => bs.contains b && (w.buf p b).req == some x.1)))
  else .bad

/-- `~MPIbuf()`: classdescMP.h:109-113; then the memory is freed (pack_base.h:230). -/
def destroy (p b : Nat) (w : World) : Out :=
  match wait p b w with
  | .ok w => if pending w p b then .bad else .ok (setBuf w p b .fresh)
  | r => r

inductive Act
  | put (p b : Nat) (xs : Bytes)
  | reset (p b : Nat)
  | send (p b dst tag : Nat)
  | isend (p b dst tag : Nat)
  | get (q b : Nat) (src tag : Option Nat) (c : Nat)
  | srStart (p b dst tag : Nat)
  | srEnd (p b dst stag : Nat) (src rtag : Option Nat) (c d x y : Nat)
  | wait (p b : Nat)
  | sent (p b : Nat) (flag : Bool)
  | multi (p : Nat) (bs cs : List Nat)
  | destroy (p b : Nat)
  deriving DecidableEq, Repr

/-- One call of one process. -/
def step (np : Nat) (w : World) : Act → Out
  | .put p b xs => put p b xs w
  | .reset p b => reset p b w
  | .send p b d t => send np p b d t w
  | .isend p b d t => isend np p b d t w
  | .get q b s t c => get q b s t c w
  | .srStart p b d t => srStart np p b d t w
  | .srEnd p b dst st s t c d x y => srEnd p b dst st s t c d x y w
  | .wait p b => wait p b w
  | .sent p b f => sent p b f w
  | .multi p bs cs => multi p bs cs w
  | .destroy p b => destroy p b w

/-- The calls of all processes in the order in which they return. -/
def run (np : Nat) : World → List Act → Out
  | w, [] => .ok w
  | w, a :: as => match step np w a with
    | .ok w => run np w as
    | r => r

end Verif.MpiMsg
