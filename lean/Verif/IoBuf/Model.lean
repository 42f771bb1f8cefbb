import Verif.Vec.Model
/-!
Model of the in-memory I/O buffer of std/io/io.n, on top of the vector model
(`Verif/Vec/Model.lean`), so that sharing of memory between the buffer and the
vectors the program holds is part of the model.  An element is one byte (`[b]`).
-/
namespace Nature.IoBuf
open Nature Nature.Vec

/-- io.n:17-20 `buffer`. -/
structure Buf where
  buf : Vec
  offset : Nat
  deriving Repr, DecidableEq

/-- io.n:22-24 `buffer.new`: zero-initialised, an empty vector without storage. -/
def newBuf : Buf := ⟨⟨none, 0, 0, 0⟩, 0⟩

/-- io.n:26-29 `buffer.write` (result: number of bytes). -/
def write (m : Mem) (b : Buf) (src : Vec) : Res (Mem × Buf × Nat) :=
  (append m 1 b.buf src).bind fun r => .ok (r.1, { b with buf := r.2 }, src.len)

/-- io.n:31-34 `buffer.write_byte`: the result is the length of the whole vector. -/
def writeByte (m : Mem) (b : Buf) (x : Elem) : Res (Mem × Buf × Nat) :=
  (push m 1 b.buf x).bind fun r => .ok (r.1, { b with buf := r.2 }, r.2.len)

/-- io.n:55-57 `buffer.empty`. -/
def empty (b : Buf) : Bool := decide (b.buf.len ≤ b.offset)

/-- io.n:59-61 `buffer.len`. -/
def len (b : Buf) : Int := b.buf.len - b.offset

/-- io.n:80-83 `buffer.reset`. -/
def reset (b : Buf) : Res Buf :=
  (slice b.buf 0 0).bind fun v => .ok ⟨v, 0⟩

/-- io.n:37-53 `buffer.read(buf)`; `none` is `throw errorf('EOF')`, after the reset. -/
def read (m : Mem) (b : Buf) (dst : Vec) : Res (Mem × Buf × Option Nat) :=
  if empty b then
    (reset b).bind fun b => .ok (m, b, if dst.len = 0 then some 0 else none)
  else
    (slice b.buf b.offset b.buf.len).bind fun s =>
    (copy m dst s).bind fun r => .ok (r.1, { b with offset := b.offset + r.2 }, some r.2)

/-- io.n:67-78 `buffer.truncate`; `panic` is `abort`. -/
def truncate (b : Buf) (n : Int) : Res Buf :=
  if n = 0 then reset b
  else if n < 0 ∨ n > len b then .abort
  else (slice b.buf 0 (b.offset + n)).bind fun v => .ok { b with buf := v }

/-- io.n:85-94 `buffer.read_all` (`[]` is a new vector without storage). -/
def readAll (b : Buf) : Res (Buf × Vec) :=
  if empty b then .ok (b, ⟨none, 0, 0, 0⟩)
  else
    (slice b.buf b.offset b.buf.len).bind fun r =>
    (reset b).bind fun b => .ok (b, r)

/-! ### Programs using one buffer and any number of byte vectors -/

/-- The memory, the buffer and the vectors the program holds. -/
structure World where
  mem : Mem
  buf : Buf
  vecs : List Vec

/-- What a program can do.  `vec` makes a new vector with the given bytes and `set`
overwrites one byte of a vector; the others are buffer calls, with vectors given by
their number.  `readAll` adds its result to the vectors. -/
inductive Op where
  | vec (xs : List Elem)
  | set (i j : Nat) (x : Elem)
  | write (i : Nat)
  | writeByte (x : Elem)
  | read (i : Nat)
  | readAll
  | truncate (n : Int)
  | len
  | empty

/-- What the program observes. -/
inductive Out where
  | unit
  | nat (n : Int)
  | bool (b : Bool)
  | bytes (xs : List Elem)
  | eof
  | throws
  | panic
  | badVar
  deriving DecidableEq, Repr

/-- One step of the program (the return value of `writeByte` is not observed). -/
def step (w : World) : Op → Res (World × Out)
  | .vec xs => .ok ({ w with mem := w.mem ++ [xs], vecs := w.vecs ++ [⟨some w.mem.length, 0, xs.length, xs.length⟩] }, .unit)
  | .set i j x =>
    match w.vecs[i]? with
    | none => .ok (w, .badVar)
    | some v =>
      match assign w.mem v j x with
      | .ok m => .ok ({ w with mem := m }, .unit)
      | .throws => .ok (w, .throws)
      | .abort => .abort
      | .ub => .ub
  | .write i =>
    match w.vecs[i]? with
    | none => .ok (w, .badVar)
    | some v => (write w.mem w.buf v).bind fun r => .ok ({ w with mem := r.1, buf := r.2.1 }, .nat r.2.2)
  | .writeByte x => (writeByte w.mem w.buf x).bind fun r => .ok ({ w with mem := r.1, buf := r.2.1 }, .unit)
  | .read i =>
    match w.vecs[i]? with
    | none => .ok (w, .badVar)
    | some v =>
      (read w.mem w.buf v).bind fun r =>
      .ok ({ w with mem := r.1, buf := r.2.1 }, match r.2.2 with | some n => .nat n | none => .eof)
  | .readAll =>
    (readAll w.buf).bind fun r =>
    match loadN w.mem r.2.blk r.2.off r.2.len with
    | some xs => .ok ({ w with buf := r.1, vecs := w.vecs ++ [r.2] }, .bytes xs)
    | none => .ub
  | .truncate n =>
    match truncate w.buf n with
    | .ok b => .ok ({ w with buf := b }, .unit)
    | .abort => .ok (w, .panic)
    | .throws => .throws
    | .ub => .ub
  | .len => .ok (w, .nat (len w.buf))
  | .empty => .ok (w, .bool (empty w.buf))

/-- Run a program: the outputs and the final world. -/
def run : World → List Op → Res (World × List Out)
  | w, [] => .ok (w, [])
  | w, op :: ops => (step w op).bind fun r => (run r.1 ops).bind fun s => .ok (s.1, r.2 :: s.2)

end Nature.IoBuf
