import Verif.BufIo.Model
/-
What the bytes going through a buffered reader or writer are, apart from any buffer.
-/
namespace Nature.BufIo
variable {σ : Type}

/-- The underlying reader never stores more than it was asked for. -/
def Src.Fair (S : Src σ) : Prop := ∀ s n bs s', S.read s n = (.data bs, s') → bs.length ≤ n

/-- The same reader, remembering all the bytes it has handed out. -/
def logged (S : Src σ) : Src (σ × List Byte) where
  read := fun (s, log) n =>
    match S.read s n with
    | (.data bs, s') => (.data bs, (s', log ++ bs))
    | (o, s') => (o, (s', log))

/-- One call of the reader's interface. -/
inductive Op
  | read (k : Nat)
  | byte
  | until (d : Byte)
  | line
  /-- `read_exact` of `k` bytes, seen for `fuel` rounds of its loop -/
  | exact (k fuel : Nat)

/-- One call: the bytes it returned or stored for its caller (for `read_exact` also when it throws), how it ended, and
the state after it. -/
def exec (S : Src σ) : Op → Reader σ → (List Byte × Out Unit) × Reader σ
  | .read k, x =>
    match read S x k with
    | (.ok bs, y) => ((bs, .ok ()), y)
    | (.throw e, y) => (([], .throw e), y)
    | (.panic, y) => (([], .panic), y)
    | (.spin, y) => (([], .spin), y)
  | .byte, x =>
    match readByte S x with
    | (.ok b, y) => (([b], .ok ()), y)
    | (.throw e, y) => (([], .throw e), y)
    | (.panic, y) => (([], .panic), y)
    | (.spin, y) => (([], .spin), y)
  | .until d, x =>
    match readUntil S x d with
    | (.ok ab, y) => ((view y ab, .ok ()), y)
    | (.throw e, y) => (([], .throw e), y)
    | (.panic, y) => (([], .panic), y)
    | (.spin, y) => (([], .spin), y)
  | .line, x =>
    match readLine S x with
    | (.ok l, y) => ((l, .ok ()), y)
    | (.throw e, y) => (([], .throw e), y)
    | (.panic, y) => (([], .panic), y)
    | (.spin, y) => (([], .spin), y)
  | .exact k fuel, x =>
    match exactLoop S fuel k [] x with
    | (bs, o, y) => ((bs, o), y)

/-- A sequence of calls. -/
def run (S : Src σ) : List Op → Reader σ → List (List Byte × Out Unit) × Reader σ
  | [], x => ([], x)
  | op :: ops, x => ((exec S op x).1 :: (run S ops (exec S op x).2).1, (run S ops (exec S op x).2).2)

/-- `Taken ops outs t`: the calls took the bytes `t` off the stream, each those it gave to its caller; `read_line` took
the line's end besides. -/
inductive Taken : List Op → List (List Byte × Out Unit) → List Byte → Prop
  | nil : Taken [] [] []
  | cons (op ops g o gs t ts) : t = g ∨ (op = .line ∧ (t = g ++ [10] ∨ t = g ++ [13, 10])) → Taken ops gs ts →
      Taken (op :: ops) ((g, o) :: gs) (t ++ ts)

/-- The bytes fetched and not yet given out. -/
def unread (x : Reader σ) : List Byte := (x.buf.take x.w).drop x.r

/-- Positions are within the buffer. -/
structure WF (x : Reader σ) : Prop where
  pos : 0 < x.buf.length
  rw : x.r ≤ x.w
  wl : x.w ≤ x.buf.length

/-! ### Lines -/

/-- Cut after each `d`; the last piece may lack it. -/
def splitAfter (d : Byte) : List Byte → List (List Byte)
  | [] => []
  | b :: t =>
    if b = d then [b] :: splitAfter d t
    else match splitAfter d t with
      | [] => [[b]]
      | l :: ls => (b :: l) :: ls

/-- A line without its end, `\r\n` or `\n`. -/
def chomp (l : List Byte) : List Byte :=
  if [13, 10] <:+ l then l.take (l.length - 2) else if [10] <:+ l then l.take (l.length - 1) else l

/-- The lines of a text. -/
def lines (data : List Byte) : List (List Byte) := (splitAfter 10 data).map chomp

/-- `Feeds S k s data`: in state `s` the reader will give the bytes `data`, in chunks of any sizes, and then stop:
by 'EOF', by another error, or by a hundred empty reads in a row (`k` more of them to go).  While there is data
there are no hundred empty reads in a row. -/
inductive Feeds (S : Src σ) : Nat → σ → List Byte → Prop
  | stop (k s) : (∀ n, 0 < n → (S.read s n).1 = .eof ∨ (S.read s n).1 = .fail) → Feeds S (k + 1) s []
  | dry (s) : Feeds S 0 s []
  | empty (k s data) (next : Nat → σ) : (∀ n, 0 < n → S.read s n = (.data [], next n)) →
      (∀ n, 0 < n → Feeds S k (next n) data) → Feeds S (k + 1) s data
  | chunk (k s data) (c rest : Nat → List Byte) (next : Nat → σ) :
      (∀ n, 0 < n → c n ≠ [] ∧ (c n).length ≤ n ∧ data = c n ++ rest n ∧ S.read s n = (.data (c n), next n)) →
      (∀ n, 0 < n → Feeds S 100 (next n) (rest n)) → Feeds S (k + 1) s data

/-- The outcomes of `n` calls of `read_line`. -/
def readLines (S : Src σ) : Nat → Reader σ → List (Out (List Byte))
  | 0, _ => []
  | n + 1, x => (readLine S x).1 :: readLines S n (readLine S x).2

/-! ### Writing -/

/-- The underlying writer takes no more than it was given. -/
def Sink.Fair (S : Sink σ) : Prop := ∀ s bs k s', S.write s bs = (.wrote k, s') → k ≤ bs.length

/-- It takes at least a byte, or throws. -/
def Sink.Moves (S : Sink σ) : Prop := ∀ s bs k s', bs ≠ [] → S.write s bs = (.wrote k, s') → 0 < k

/-- The same writer, remembering all the bytes it has taken. -/
def loggedW (S : Sink σ) : Sink (σ × List Byte) where
  write := fun (s, log) bs =>
    match S.write s bs with
    | (.wrote k, s') => (.wrote k, (s', log ++ bs.take k))
    | (.fail k, s') => (.fail k, (s', log ++ bs.take k))

/-- One call of the writer's interface. -/
inductive WOp
  | write (bs : List Byte)
  | byte (b : Byte)
  | flush

/-- The bytes a call is given. -/
def WOp.bytes : WOp → List Byte
  | .write bs => bs
  | .byte b => [b]
  | .flush => []

/-- One call, with any fuel; the flag tells whether it ended normally (else it threw). -/
inductive WCall (S : Sink σ) : WOp → Writer σ → Bool → Writer σ → Prop
  | write (bs ff fuel x k y) : write S ff fuel x bs = (.ok k, y) → WCall S (.write bs) x true y
  | writeThrow (bs ff fuel x e y) : write S ff fuel x bs = (.throw e, y) → WCall S (.write bs) x false y
  | byte (b ff x y) : writeByte S ff x b = (.ok (), y) → WCall S (.byte b) x true y
  | byteThrow (b ff x e y) : writeByte S ff x b = (.throw e, y) → WCall S (.byte b) x false y
  | flush (ff x y) : flush S ff x = (.ok (), y) → WCall S .flush x true y
  | flushThrow (ff x e y) : flush S ff x = (.throw e, y) → WCall S .flush x false y

/-- A sequence of calls, and which of them ended normally. -/
inductive WCalls (S : Sink σ) : List WOp → Writer σ → List Bool → Writer σ → Prop
  | nil (x) : WCalls S [] x [] x
  | cons (op ops x y b rs z) : WCall S op x b y → WCalls S ops y rs z → WCalls S (op :: ops) x (b :: rs) z

/-- The writer's positions. -/
structure WWF (x : Writer σ) : Prop where
  pos : 0 < x.buf.length
  le : x.n ≤ x.buf.length

end Nature.BufIo
