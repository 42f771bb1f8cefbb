/-
Model of the buffered reader and writer of /repo/std/io/buf.n.

The underlying reader is any function from a state and a request length to a result: the bytes it stores at the front
of the slice it is given, the error 'EOF', or another error; the underlying writer likewise.  Negative counts are left
out (io.reader/io.writer promise a count), as are counts above the request (see `Src.Fair`, `Sink.Fair` in Spec).
`self.buf` is the list of its bytes, its length fixed; a slice handed to the program is described by the bytes it
shows at that moment and, for `read_until`, by its place in `self.buf`.
-/
namespace Nature.BufIo

abbrev Byte := UInt8

/-- What one call of the underlying reader gives. -/
inductive Rd
  | data (bs : List Byte)
  | eof
  | fail

/-- The underlying reader, std/io/io.n:5-7. -/
structure Src (σ : Type) where
  read : σ → Nat → Rd × σ

/-- Errors thrown. -/
inductive Err
  | eof
  | noProgress
  | other
deriving DecidableEq, Repr

/-- How an operation ends: a result, a throw, a panic; `spin`: the loop has not ended within the fuel. -/
inductive Out (α : Type)
  | ok (a : α)
  | throw (e : Err)
  | panic
  | spin
deriving DecidableEq, Repr

/-- buf.n:3-9 `reader`. -/
structure Reader (σ : Type) where
  rd : σ
  buf : List Byte
  r : Nat
  w : Nat
  eof : Bool

variable {σ : Type}

/-- buf.n:3-9: a new reader over `rd`, with the default buffer of 4096 zero bytes; 18-26 `reset` gives the same
positions. -/
def newReader (rd : σ) (size : Nat) : Reader σ := ⟨rd, List.replicate size 0, 0, 0, false⟩

/-- `dst.copy(src)`, runtime/nutils/vec.c:445-454: as many bytes as both have, moved to the front of `dst`. -/
def copyTo (dst src : List Byte) : List Byte := src.take dst.length ++ dst.drop src.length

/-- buf.n:100-102 `buffered`. -/
def buffered (x : Reader σ) : Nat := x.w - x.r

/-- buf.n:42-58: the retry loop of `fill`; the count is the number of tries left. -/
def fillLoop (S : Src σ) : Nat → Reader σ → Out Unit × Reader σ
  | 0, x => (.throw .noProgress, x)
  | i + 1, x =>
    match S.read x.rd (x.buf.length - x.w) with
    | (.eof, s) => (.throw .eof, { x with rd := s, eof := true })
    | (.fail, s) => (.throw .other, { x with rd := s })
    | (.data bs, s) =>
      let y := { x with rd := s, buf := x.buf.take x.w ++ bs ++ x.buf.drop (x.w + bs.length), w := x.w + bs.length }
      if bs.length > 0 then (.ok (), y) else fillLoop S i y

/-- buf.n:29-61 `fill`. -/
def fill (S : Src σ) (x : Reader σ) : Out Unit × Reader σ :=
  let y := if x.r > 0 then
      { x with buf := copyTo x.buf ((x.buf.take x.w).drop x.r), w := x.w - x.r, r := 0 }
    else x
  if y.w ≥ y.buf.length then (.panic, y)
  else fillLoop S 100 y

/-- buf.n:64-98 `read(buf)` for a request of `k` bytes: the bytes stored at the front of the caller's buffer. -/
def read (S : Src σ) (x : Reader σ) (k : Nat) : Out (List Byte) × Reader σ :=
  if k = 0 then
    if buffered x > 0 then (.ok [], x) else (.throw .eof, { x with eof := true })
  else if x.r = x.w then
    if k ≥ x.buf.length then
      match S.read x.rd k with
      | (.eof, s) => (.throw .eof, { x with rd := s })
      | (.fail, s) => (.throw .other, { x with rd := s })
      | (.data bs, s) => (.ok bs, { x with rd := s })
    else
      let y := { x with r := 0, w := 0 }
      match S.read y.rd y.buf.length with
      | (.eof, s) => (.throw .eof, { y with rd := s })
      | (.fail, s) => (.throw .other, { y with rd := s })
      | (.data bs, s) =>
        let z := { y with rd := s, buf := bs ++ y.buf.drop bs.length }
        if bs.length = 0 then (.throw .eof, { z with eof := true })
        else
          let u := { z with w := z.w + bs.length }
          let out := ((u.buf.take u.w).drop u.r).take k
          (.ok out, { u with r := u.r + out.length })
  else
    let out := ((x.buf.take x.w).drop x.r).take k
    (.ok out, { x with r := x.r + out.length })

/-- buf.n:104-113: the scan for `delim` in `buf[j..w)`; `n` is the number of bytes left to look at. -/
def scan (buf : List Byte) (delim : Byte) : Nat → Nat → Option Nat
  | _, 0 => none
  | j, n + 1 => if buf[j]? = some delim then some j else scan buf delim (j + 1) n

/-- buf.n:105-150 `read_until`: the slice `[a, b)` of `self.buf` it returns.  The fuel bounds the rounds. -/
def untilLoop (S : Src σ) (delim : Byte) : Nat → Bool → Reader σ → Out (Nat × Nat) × Reader σ
  | 0, _, x => (.spin, x)
  | n + 1, hasErr, x =>
    match scan x.buf delim x.r (x.w - x.r) with
    | some j => (.ok (x.r, j + 1), { x with r := j + 1 })
    | none =>
      if hasErr then (.ok (x.r, x.w), { x with r := x.w })
      else if buffered x ≥ x.buf.length then (.ok (0, x.buf.length), { x with r := x.w })
      else
        match fill S x with
        | (.ok _, y) => untilLoop S delim n false y
        | (.throw _, y) => untilLoop S delim n true { y with eof := true }
        | (.panic, y) => (.panic, y)
        | (.spin, y) => (.spin, y)

/-- The bytes a slice of `self.buf` shows. -/
def view (x : Reader σ) (ab : Nat × Nat) : List Byte := (x.buf.take ab.2).drop ab.1

/-- buf.n:105-150 `read_until`.  Every round but the last two adds a byte to the buffer, so the fuel suffices
(theorem C49_until). -/
def readUntil (S : Src σ) (x : Reader σ) (delim : Byte) : Out (Nat × Nat) × Reader σ :=
  untilLoop S delim (x.buf.length + 2) false x

/-- buf.n:153-159 `read_exact`: the bytes stored in the caller's buffer so far, and how it ended. -/
def exactLoop (S : Src σ) : Nat → Nat → List Byte → Reader σ → List Byte × Out Unit × Reader σ
  | 0, k, acc, x => if acc.length < k then (acc, .spin, x) else (acc, .ok (), x)
  | n + 1, k, acc, x =>
    if acc.length < k then
      match read S x (k - acc.length) with
      | (.ok bs, y) => exactLoop S n k (acc ++ bs) y
      | (.throw e, y) => (acc, .throw e, y)
      | (.panic, y) => (acc, .panic, y)
      | (.spin, y) => (acc, .spin, y)
    else (acc, .ok (), x)

/-- buf.n:162-170 `read_byte`; indexing beyond the buffer panics. -/
def readByte (S : Src σ) (x : Reader σ) : Out Byte × Reader σ :=
  let take (y : Reader σ) : Out Byte × Reader σ :=
    match y.buf[y.r]? with
    | some b => (.ok b, { y with r := y.r + 1 })
    | none => (.panic, y)
  if x.r = x.w then
    match fill S x with
    | (.ok _, y) => take y
    | (.throw e, y) => (.throw e, y)
    | (.panic, y) => (.panic, y)
    | (.spin, y) => (.spin, y)
  else take x

/-- buf.n:186-193: take off a final `\n` and then a final `\r`. -/
def strip (bs : List Byte) : List Byte :=
  if bs.getLast? = some 10 then
    let c := bs.dropLast
    if c.getLast? = some 13 then c.dropLast else c
  else bs

/-- buf.n:173-196 `read_line` (`bytes as string` copies the bytes: C04). -/
def readLine (S : Src σ) (x : Reader σ) : Out (List Byte) × Reader σ :=
  if x.eof then (.throw .eof, x)
  else
    match readUntil S x 10 with
    | (.ok ab, y) => if y.eof ∧ (view y ab).length = 0 then (.throw .eof, y) else (.ok (strip (view y ab)), y)
    | (.throw e, y) => (.throw e, y)
    | (.panic, y) => (.panic, y)
    | (.spin, y) => (.spin, y)

/-! ### The writer -/

/-- What one call of the underlying writer does: it takes the first `n` bytes, or takes `n` bytes and throws. -/
inductive Wr
  | wrote (n : Nat)
  | fail (n : Nat)

/-- The underlying writer, std/io/io.n:9-11. -/
structure Sink (σ : Type) where
  write : σ → List Byte → Wr × σ

/-- buf.n:198-203 `writer`. -/
structure Writer (σ : Type) where
  wr : σ
  buf : List Byte
  n : Nat
  err : Bool

def newWriter (wr : σ) (size : Nat) : Writer σ := ⟨wr, List.replicate size 0, 0, false⟩

/-- buf.n:220-222 `available`. -/
def available (x : Writer σ) : Nat := x.buf.length - x.n

/-- buf.n:240-253: the loop of `flush`. -/
def flushLoop (S : Sink σ) : Nat → Nat → Writer σ → Out Unit × Writer σ
  | 0, written, x => if written < x.n then (.spin, x) else (.ok (), { x with n := 0 })
  | i + 1, written, x =>
    if written < x.n then
      match S.write x.wr ((x.buf.take x.n).drop written) with
      | (.fail _, s) => (.throw .other, { x with wr := s, err := true })
      | (.wrote k, s) => flushLoop S i (written + k) { x with wr := s }
    else (.ok (), { x with n := 0 })

/-- buf.n:230-256 `flush`. -/
def flush (S : Sink σ) (fuel : Nat) (x : Writer σ) : Out Unit × Writer σ :=
  if x.err then (.throw .other, x)
  else if x.n = 0 then (.ok (), x)
  else flushLoop S fuel 0 x

/-- buf.n:279-302: one round of `write`'s loop, after the flush; `again` is the next round. -/
def writeRound (S : Sink σ) (bs : List Byte) (again : Nat → Writer σ → Out Nat × Writer σ) (total : Nat) (x : Writer σ) :
    Out Nat × Writer σ :=
  if bs.length - total ≥ x.buf.length ∧ x.n = 0 then
    match S.write x.wr (bs.drop total) with
    | (.fail _, s) => (.throw .other, { x with wr := s, err := true })
    | (.wrote k, s) => again (total + k) { x with wr := s }
  else
    let c := min (bs.length - total) (available x)
    again (total + c)
      { x with buf := x.buf.take x.n ++ (bs.drop total).take c ++ x.buf.drop (x.n + c), n := x.n + c }

/-- buf.n:267-303: the loop of `write`. -/
def writeLoop (S : Sink σ) (ff : Nat) (bs : List Byte) : Nat → Nat → Writer σ → Out Nat × Writer σ
  | 0, total, x => if total < bs.length then (.spin, x) else (.ok total, x)
  | i + 1, total, x =>
    if total < bs.length then
      if available x = 0 then
        match flush S ff x with
        | (.ok _, y) => writeRound S bs (writeLoop S ff bs i) total y
        | (.throw e, y) => (.throw e, y)
        | (.panic, y) => (.panic, y)
        | (.spin, y) => (.spin, y)
      else writeRound S bs (writeLoop S ff bs i) total x
    else (.ok total, x)

/-- buf.n:259-306 `write`. -/
def write (S : Sink σ) (ff fuel : Nat) (x : Writer σ) (bs : List Byte) : Out Nat × Writer σ :=
  if x.err then (.throw .other, x) else writeLoop S ff bs fuel 0 x

/-- buf.n:309-320 `write_byte`; storing beyond the buffer panics. -/
def writeByte (S : Sink σ) (ff : Nat) (x : Writer σ) (b : Byte) : Out Unit × Writer σ :=
  let put (y : Writer σ) : Out Unit × Writer σ :=
    if y.n < y.buf.length then (.ok (), { y with buf := y.buf.set y.n b, n := y.n + 1 }) else (.panic, y)
  if x.err then (.throw .other, x)
  else if available x = 0 then
    match flush S ff x with
    | (.ok _, y) => put y
    | (.throw e, y) => (.throw e, y)
    | (.panic, y) => (.panic, y)
    | (.spin, y) => (.spin, y)
  else put x

end Nature.BufIo
