/-
The master and slave manager `MPIslave<S>`, with the contents of its messages: classdescMP.h:397-476.  (Verif.Mpi has only its list of idle
slaves.)

Messages between two processes arrive in the order in which they were sent, and a send does not block (see Verif.MpiMsg).  Packing appends to a
buffer (Verif.Buffer).  Not here: exceptions thrown by the slaves' methods, methods that call MPI themselves.
-/
namespace Verif.MpiFarm

abbrev Bytes := List UInt8

/-- The buffer a slave has for requests and answers: classdescMP.h:438. -/
structure Buf where
  data : Bytes
  pos : Nat
  proc : Nat
  tag : Nat
  deriving DecidableEq, Repr

/-- The class `S`, of which every slave has an object.  `M` are its methods; a pointer to one takes `width` bytes, which are packed as they are
(pack_base.h:704-710), and is the same in all processes, which run the same program.  `call` is what a method does. -/
structure Cls (σ M : Type) where
  width : Nat
  enc : M → Bytes
  dec : Bytes → Option M
  call : M → σ → Buf → σ × Buf
  enc_length : ∀ m, (enc m).length = width
  dec_enc : ∀ m, dec (enc m) = some m

/-- All processes.  `buf` are the buffers of the master, 0 being the manager itself; `chan p q` the messages under way from `p` to `q` with their
tags; `obj` the objects of the slaves; `ended` tells which slaves have left the loop. -/
structure World (σ : Type) where
  buf : Nat → Bytes
  idle : List Nat
  chan : Nat → Nat → List (Nat × Bytes)
  obj : Nat → σ
  ended : Nat → Bool

/-- `blocked`: the call does not return yet.  `bad`: undefined behaviour, or the program is ended. -/
inductive Out (σ : Type)
  | ok (w : World σ)
  | blocked
  | bad

variable {σ M : Type}

def setBuf (w : World σ) (b : Nat) (x : Bytes) : World σ := { w with buf := fun c => if c = b then x else w.buf c }

def setChan (w : World σ) (p q : Nat) (l : List (Nat × Bytes)) : World σ :=
  { w with chan := fun r s => if r = p ∧ s = q then l else w.chan r s }

def setObj (w : World σ) (p : Nat) (x : σ) : World σ := { w with obj := fun q => if q = p then x else w.obj q }

def post (w : World σ) (p q tag : Nat) (x : Bytes) : World σ := setChan w p q (w.chan p q ++ [(tag, x)])

/-- The slaves, in order. -/
def slaves (np : Nat) : List Nat := (List.range np).drop 1

/-- `init()` on all processes: classdescMP.h:428-448. -/
def init (np : Nat) (s : Nat → σ) : World σ := ⟨fun _ => [], slaves np, fun _ _ => [], s, fun _ => false⟩

/-- `send(dest,tag)` of the master: classdescMP.h:251-255. -/
def send (np b dst tag : Nat) (w : World σ) : Out σ :=
  if dst = 0 then .ok w
  else if np ≤ dst then .bad
  else .ok (setBuf (post w 0 dst tag (w.buf b)) b [])

/-- `exec(x)`: classdescMP.h:421. -/
def exec (np b : Nat) (w : World σ) : Out σ :=
  match w.idle.getLast? with
  | none => .bad
  | some p => match send np b p 0 w with
    | .ok w => .ok { w with idle := w.idle.dropLast }
    | r => r

/-- `bcast(c)`: classdescMP.h:470-476. -/
def bcast (np b : Nat) (w : World σ) : World σ :=
  setBuf ((slaves np).foldl (fun v p => post v 0 p 0 (w.buf 0)) w) b []

/-- `get_returnv()`, which finds a message of process `c`: classdescMP.h:263-276, 423. -/
def getReturnv (c : Nat) (w : World σ) : Out σ :=
  match w.chan c 0 with
  | [] => .blocked
  | (_, x) :: l => .ok { setBuf (setChan w c 0 l) 0 x with idle := w.idle ++ [c] }

/-- `finalize()`, also called by the destructor: classdescMP.h:402, 450-455. -/
def finalize (np : Nat) (w : World σ) : Out σ :=
  (slaves np).foldl (fun r p => match r with | .ok v => send np 0 p 1 v | r => r) (.ok w)

/-- `slave << &S::m`: classdescMP.h:409-415. -/
def begin' (C : Cls σ M) (m : M) (w : World σ) : World σ := setBuf w 0 (C.enc m)

/-- Packing to one of the master's buffers: pack_stream.h:27-28, pack_base.h:251-262. -/
def put (b : Nat) (x : Bytes) (w : World σ) : World σ := setBuf w b (w.buf b ++ x)

/-- `slave << x`, with anything but a method pointer: classdescMP.h:416-417.  `(*this) << x` is this same function; `n` calls fit on the stack. -/
def shl : Nat → Bytes → World σ → Out σ
  | 0, _, _ => .bad
  | n + 1, x, w => shl n x (setBuf w 0 [])

/-- `send(buffer.proc,0)` of slave `p`. -/
def answer (np p : Nat) (b : Buf) (w : World σ) : Out σ :=
  if b.proc = p then .ok w
  else if np ≤ b.proc then .bad
  else .ok (post w p b.proc 0 b.data)

/-- `method(buffer)` of slave `p`: classdescMP.h:457-468. -/
def method (C : Cls σ M) (np p : Nat) (b : Buf) (w : World σ) : Out σ :=
  if b.data.length < b.pos + C.width then .bad
  else match C.dec ((b.data.drop b.pos).take C.width) with
    | none => .bad
    | some m =>
      let r := C.call m (w.obj p) { b with pos := b.pos + C.width, tag := 0 }
      let w := setObj w p r.1
      if r.2.tag = 0 then .ok w else answer np p r.2 w

/-- One turn of the loop of slave `p`, which finds a message of process `c`: classdescMP.h:436-443, 263-276. -/
def serve (C : Cls σ M) (np p c : Nat) (w : World σ) : Out σ :=
  if p = 0 ∨ np ≤ p ∨ w.ended p then .blocked
  else match w.chan c p with
    | [] => .blocked
    | (t, x) :: l =>
      let w := setChan w c p l
      if t = 0 then method C np p ⟨x, 0, c, t⟩ w
      else .ok { w with ended := fun q => if q = p then true else w.ended q }

inductive Act (M : Type)
  | begin' (m : M)
  | put (b : Nat) (x : Bytes)
  | shl (n : Nat) (x : Bytes)
  | send (b dst tag : Nat)
  | exec (b : Nat)
  | bcast (b : Nat)
  | getReturnv (c : Nat)
  | finalize
  | serve (p c : Nat)

def step (C : Cls σ M) (np : Nat) (w : World σ) : Act M → Out σ
  | .begin' m => .ok (begin' C m w)
  | .put b x => .ok (put b x w)
  | .shl n x => shl n x w
  | .send b d t => send np b d t w
  | .exec b => exec np b w
  | .bcast b => .ok (bcast np b w)
  | .getReturnv c => getReturnv c w
  | .finalize => finalize np w
  | .serve p c => serve C np p c w

def run (C : Cls σ M) (np : Nat) : World σ → List (Act M) → Out σ
  | w, [] => .ok w
  | w, a :: as => match step C np w a with
    | .ok w => run C np w as
    | r => r

end Verif.MpiFarm
