import Verif.Buffer
/-
Buffers that are files: `pack_t` in the modes `readf` and `writef`, pack_base.h:162-281.

The file is a regular one, and the C library does what the standard says: a stream has the contents of the file and one position.  Writes do
not fail.  A file opened with "w" cannot be read and one opened with "r" not be written (`none`: the call throws).
-/
namespace Verif.File

/-- A `FILE`. -/
structure FS where
  data : Bytes
  off : Nat
  deriving DecidableEq, Repr

/-- `fwrite(x,s,1,f)`: the bytes replace those at the position; a gap is filled with zeros.  Returns 0 for no bytes. -/
def fwrite (xs : Bytes) (s : FS) : Nat × FS :=
  if xs = [] then (0, s)
  else (1, ⟨s.data.take s.off ++ List.replicate (s.off - s.data.length) 0 ++ xs ++ s.data.drop (s.off + xs.length), s.off + xs.length⟩)

/-- `fread(x,n,1,f)`: if there are not enough bytes, those there are have been read.  Returns 0 for no bytes. -/
def fread (n : Nat) (s : FS) : Nat × Bytes × FS :=
  if n = 0 then (0, [], s)
  else if s.off + n ≤ s.data.length then (1, (s.data.drop s.off).take n, { s with off := s.off + n })
  else (0, s.data.drop s.off, { s with off := max s.off s.data.length })

/-- `fseek(f,d,SEEK_CUR)`: fails, and does nothing, in front of the file. -/
def fseekCur (d : Int) (s : FS) : FS := if (s.off : Int) + d < 0 then s else { s with off := ((s.off : Int) + d).toNat }

def fseek0 (s : FS) : FS := { s with off := 0 }

/-- `pack_t` with a file: `m_size` and `m_pos` are counted, nothing else is used. -/
structure PF where
  fs : FS
  write : Bool
  size : Nat
  pos : Nat
  deriving DecidableEq, Repr

/-- `pack_t(fname,"w")`, `pack_t(fname,"r")`: pack_base.h:221-230. -/
def openW : PF := ⟨⟨[], 0⟩, true, 0, 0⟩
def openR (c : Bytes) : PF := ⟨⟨c, 0⟩, false, 0, 0⟩

/-- `append`: pack_base.h:189-202. -/
def append (xs : Bytes) (p : PF) : Option Unit × PF :=
  if p.write = false then (none, p)
  else if (fwrite xs p.fs).1 ≠ 1 then (none, { p with fs := (fwrite xs p.fs).2 })
  else (some (), { p with fs := (fwrite xs p.fs).2, size := p.size + xs.length })

/-- `packraw`: pack_base.h:251-262. -/
def packraw (xs : Bytes) (p : PF) : Option Unit × PF :=
  if xs = [] then (some (), p)
  else if p.write = false then (none, p)
  else if (fwrite xs p.fs).1 ≠ 1 then (none, { p with fs := (fwrite xs p.fs).2 })
  else (some (), { p with fs := (fwrite xs p.fs).2 })

/-- `popoff`: pack_base.h:203-214. -/
def popoff (n : Nat) (p : PF) : Option Bytes × PF :=
  if p.write = true then (none, p)
  else if (fread n p.fs).1 ≠ 1 then (none, { p with fs := (fread n p.fs).2.2 })
  else (some (fread n p.fs).2.1, { p with fs := (fread n p.fs).2.2, pos := p.pos + n })

/-- `unpackraw`: pack_base.h:269-281. -/
def unpackraw (n : Nat) (p : PF) : Option Bytes × PF :=
  if n = 0 then (some [], p)
  else if p.write = true then (none, p)
  else if (fread n p.fs).1 ≠ 1 then (none, { p with fs := (fread n p.fs).2.2 })
  else (some (fread n p.fs).2.1, { p with fs := (fread n p.fs).2.2, pos := p.pos + n })

/-- `operator bool`: pack_base.h:237. -/
def toBool (p : PF) : Bool := p.pos < p.size

/-- `reseti`, `reseto`: pack_base.h:238-239. -/
def reseti (p : PF) : PF := { p with size := 0, fs := fseek0 p.fs }
def reseto (p : PF) : PF := { p with pos := 0, fs := fseek0 p.fs }

/-- `seeki(-k)`: pack_base.h:240-244. -/
def seeki (k : Nat) (p : PF) : PF := { p with size := (p.size + (W64 - k % W64)) % W64, fs := fseekCur (-(k : Int)) p.fs }

/-- `seeko(d)`: pack_base.h:245-249. -/
def seeko (d : Int) (p : PF) : PF := { p with pos := (((p.pos : Int) + d) % (W64 : Int)).toNat, fs := fseekCur d p.fs }

/-- The test made before a vector is allocated, of a count read by `BinStream`: pack_stl.h:95, `w` is the size of an element.  True: it
throws. -/
def refuses (size pos w sz : Nat) : Bool := (size + (W64 - pos)) % W64 < sz * w % W64

/-! ### Programs that use a buffer -/

/-- What is written: with `append` (numbers) or `packraw`. -/
inductive W
  | num (xs : Bytes)
  | raw (xs : Bytes)

def W.bytes : W → Bytes
  | num xs => xs
  | raw xs => xs

def writeAll : List W → PF → Option Unit × PF
  | [], p => (some (), p)
  | .num xs :: ws, p => match append xs p with
    | (some (), p) => writeAll ws p
    | r => r
  | .raw xs :: ws, p => match packraw xs p with
    | (some (), p) => writeAll ws p
    | r => r

/-- A program that reads: what it reads next depends on what it has read. -/
inductive Client (α : Type)
  | done (a : α)
  | num (n : Nat) (k : Bytes → Client α)
  | raw (n : Nat) (k : Bytes → Client α)

/-- Run with a file.  An exception ends it. -/
def Client.file {α : Type} : Client α → PF → Option α × PF
  | .done a, p => (some a, p)
  | .num n k, p => match popoff n p with
    | (some xs, p) => (k xs).file p
    | (none, p) => (none, p)
  | .raw n k, p => match unpackraw n p with
    | (some xs, p) => (k xs).file p
    | (none, p) => (none, p)

/-- Run with a buffer in memory. -/
def Client.mem {α : Type} : Client α → M α
  | .done a => M.pure a
  | .num n k => M.bind (Buf.popoff n) fun xs => (k xs).mem
  | .raw n k => M.bind (Buf.unpackraw n) fun xs => (k xs).mem

end Verif.File
