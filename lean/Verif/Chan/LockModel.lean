import Verif.Common
/-!
Model of the lock handling of `select`: runtime/rt_chan.c.

A `select` has `n` cases; case `k` waits on the channel at address `a k`.  Addresses are natural numbers, `<` on pointers is
`<` on addresses.  No channel is null (pass 1 asserts it).  `int16_t` index arithmetic is exact: `n` is at most 32767.
Reads and writes outside an array are `ub`; running out of fuel is `abort` (shown not to happen).
-/
namespace Nature.Chan
open Nature

/-- Array read. -/
def rd (l : List Nat) (k : Nat) : Res Nat :=
  match l[k]? with
  | some x => .ok x
  | none => .ub
/-- Array write. -/
def wr (l : List Nat) (k x : Nat) : Res (List Nat) := if k < l.length then .ok (l.set k x) else .ub

/-- rt_chan.c:499-512: the random permutation; `rnd i` is what `rand()` returns in round `i`. -/
def pollLoop (rnd : Nat → Nat) : Nat → Nat → List Nat → Res (List Nat)
  | 0, _, p => .ok p
  | f + 1, i, p =>
    let j := rnd i % (i + 1)
    (rd p j).bind fun x =>
    (wr p i x).bind fun p =>
    (wr p j i).bind fun p => pollLoop rnd f (i + 1) p
/-- rt_chan.c:493-512: `pollorder`, from a zeroed array. -/
def pollOrder (rnd : Nat → Nat) (n : Nat) : Res (List Nat) := pollLoop rnd n 0 (List.replicate n 0)

/-- rt_chan.c:519-523: move the hole at `j` up while the parent's channel is smaller than `ch`. -/
def siftUp (a : Nat → Nat) (ch : Nat) : Nat → List Nat → Nat → Res (List Nat × Nat)
  | 0, _, _ => .abort
  | f + 1, lo, j =>
    if j = 0 then .ok (lo, 0)
    else
      (rd lo ((j - 1) / 2)).bind fun o =>
      if a o < ch then (wr lo j o).bind fun lo => siftUp a ch f lo ((j - 1) / 2)
      else .ok (lo, j)
/-- rt_chan.c:515-526: build the heap. -/
def buildLoop (a : Nat → Nat) (poll : List Nat) : Nat → Nat → List Nat → Res (List Nat)
  | 0, _, lo => .ok lo
  | f + 1, i, lo =>
    (rd poll i).bind fun o =>
    (siftUp a (a o) (i + 1) lo i).bind fun r =>
    (wr r.1 r.2 o).bind fun lo => buildLoop a poll f (i + 1) lo

/-- rt_chan.c:533-547: move the hole at `j` down in the heap of the first `m` entries. -/
def siftDown (a : Nat → Nat) (ch m : Nat) : Nat → List Nat → Nat → Res (List Nat × Nat)
  | 0, _, _ => .abort
  | f + 1, lo, j =>
    let k := j * 2 + 1
    if k ≥ m then .ok (lo, j)
    else
      (if k + 1 < m then (rd lo k).bind fun x => (rd lo (k + 1)).bind fun y => .ok (if a x < a y then k + 1 else k)
       else .ok k).bind fun k =>
      (rd lo k).bind fun x =>
      if ch < a x then (wr lo j x).bind fun lo => siftDown a ch m f lo k
      else .ok (lo, j)
/-- rt_chan.c:528-550: take the largest out, for `i = m - 1` down to 0. -/
def extractLoop (a : Nat → Nat) : Nat → List Nat → Res (List Nat)
  | 0, lo => .ok lo
  | i + 1, lo =>
    (rd lo i).bind fun o =>
    (rd lo 0).bind fun z =>
    (wr lo i z).bind fun lo =>
    (siftDown a (a o) i (i + 1) lo 0).bind fun r =>
    (wr r.1 r.2 o).bind fun lo => extractLoop a i lo
/-- rt_chan.c:493-550: `lockorder`. -/
def lockOrder (a rnd : Nat → Nat) (n : Nat) : Res (List Nat) :=
  (pollOrder rnd n).bind fun poll =>
  (buildLoop a poll n 0 (List.replicate n 0)).bind fun lo => extractLoop a n lo

/-- rt_chan.c:439-449 `sellock`: the channels locked, in order; `cs` are the channels in `lockorder`, `c` the last one seen. -/
def lockSeq : Option Nat → List Nat → List Nat
  | _, [] => []
  | c, c0 :: cs => if some c0 ≠ c then c0 :: lockSeq (some c0) cs else lockSeq c cs

/-- rt_chan.c:452-461 `selunlock`: the channels unlocked, in order, for `i` from `k - 1` down to 0. -/
def unlockSeq (cs : List Nat) : Nat → List Nat
  | 0 => []
  | i + 1 =>
    match cs[i]? with
    | none => []
    | some c => if i > 0 ∧ cs[i - 1]? = some c then unlockSeq cs i else c :: unlockSeq cs i

/-- rt_chan.c:464-479 `selpark_commit`: the channels unlocked, in order; `cs` are the channels in CASE order
(`co->waiting` is linked in the order of the cases, 611-632). -/
def parkSeq : Option Nat → List Nat → List Nat
  | none, [] => []
  | some l, [] => [l]
  | none, c :: cs => parkSeq (some c) cs
  | some l, c :: cs => if c ≠ l then l :: parkSeq (some c) cs else parkSeq (some c) cs

end Nature.Chan
