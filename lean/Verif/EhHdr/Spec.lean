/-!
# How an unwinder uses `.eh_frame_hdr`

After the Linux Standard Base, "Exception Frames", and `unwind-dw2-fde-dip.c` of libgcc: the table is read
with the encodings `pcrel | sdata4`, `udata4` and `datarel | sdata4`, and searched by bisection.
-/

namespace Nature.EhHdr.Spec

/-- The number in the first `n` bytes of a list, lowest byte first. -/
def word : Nat → List Nat → Nat
  | 0, _ => 0
  | _ + 1, [] => 0
  | n + 1, b :: bs => b + 256 * word n bs

/-- The address that the four bytes at offset `off` give as a signed distance from `base`. -/
def address (base : Nat) (bytes : List Nat) (off : Nat) : Nat :=
  let w := word 4 (bytes.drop off)
  let d : Int := if w < 2 ^ 31 then w else (w : Int) - 2 ^ 32
  (((base : Int) + d) % 2 ^ 64).toNat

/-- The rows of the table of a header at address `hdr`: start of the code and its FDE. -/
def rows (hdr : Nat) (bytes : List Nat) : List (Nat × Nat) :=
  (List.range (word 4 (bytes.drop 8))).map fun i =>
    (address hdr bytes (12 + 8 * i), address hdr bytes (12 + 8 * i + 4))

/-- The start of row `i`. -/
def start (t : List (Nat × Nat)) (i : Nat) : Nat := (t.getD i (0, 0)).1

/-- The loop of the search.  `none` is a failed assertion. -/
def bisect (t : List (Nat × Nat)) (pc : Nat) : Nat → Nat → Nat → Option Nat
  | 0, _, _ => none
  | fuel + 1, lo, hi =>
    if lo < hi then
      let mid := (lo + hi) / 2
      if pc < start t mid then bisect t pc fuel lo mid
      else if pc ≥ start t (mid + 1) then bisect t pc fuel (mid + 1) hi
      else some mid
    else none

/-- What a search gives: no code before `pc`, a row, or a failed assertion. -/
inductive Found where
  | nothing
  | row (r : Nat × Nat)
  | abort
  deriving DecidableEq, Repr

/-- The search for the code that `pc` is in. -/
def search (t : List (Nat × Nat)) (pc : Nat) : Found :=
  if t.length = 0 then .nothing
  else if pc < start t 0 then .nothing
  else if pc < start t (t.length - 1) then
    match bisect t pc t.length 0 (t.length - 1) with
    | none => .abort
    | some i => .row (t.getD i (0, 0))
  else .row (t.getD (t.length - 1) (0, 0))

/-- A distance that fits in a signed number of 32 bits. -/
def Near (target base : Nat) : Prop :=
  -(2 ^ 31 : Int) ≤ (target : Int) - base ∧ (target : Int) - base < 2 ^ 31

end Nature.EhHdr.Spec
