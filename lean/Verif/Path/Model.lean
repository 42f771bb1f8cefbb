import Verif.Strings.Model
/-!
Model of std/path/path.n: `base`, `dir`, `join`.  Strings are byte lists; string
operations are those of `Verif/Strings/Model.lean`.  `exists` and `isdir` (system
calls) are not modelled.  `dst as [u8]` copies (string.c:11-13), so pushing to
`dst_list` does not change `dst`.  Bytes: 47 is `/`, 46 is `.`.
-/
namespace Nature.Path
open Nature Nature.Strings

/-- path.n:15-32 `base`. -/
def base (path : Str) : Res Str :=
  if path = [] then .ok [46#8]
  else
    (rtrim path [[47#8]]).bind fun path =>
    if path = [] then .ok [47#8]
    else
      (rfind path [47#8]).bind fun i =>
      if i = -1 then .ok path
      else slice path (i + 1) path.length

/-- path.n:35-60 `dir`. -/
def dir (path : Str) : Res Str :=
  if path = [] then .ok [46#8]
  else if path = [47#8] then .ok [47#8]
  else
    (at' path (path.length - 1)).bind fun last =>
    if last = 47#8 then slice path 0 (path.length - 1)
    else
      (rfind path [47#8]).bind fun i =>
      if i = -1 then .ok [46#8]
      else if i = 0 then .ok [47#8]
      else slice path 0 i

/-- path.n:100-102: `for int i = 1; i < src.len(); i+=1 { dst_list.push(src[i]) }`. -/
def pushLoop (src : Str) : (k i : Nat) → Str → Res Str
  | 0, _, acc => .ok acc
  | k + 1, i, acc => (at' src i).bind fun c => pushLoop src k (i + 1) (acc ++ [c])

/-- path.n:70-111 `_join`. -/
def join2 (dst src : Str) : Res Str :=
  if src.length = 0 then .ok dst
  else if dst.length = 0 then .ok src
  else if src = [46#8] then .ok dst
  else
    (at' src 0).bind fun s0 =>
    if s0 = 47#8 then .ok src
    else
      (at' dst (dst.length - 1)).bind fun last =>
      (if last = 47#8 then slice dst 0 (dst.length - 1) else .ok dst).bind fun dst =>
      (if s0 = 46#8 then (at' src 1).bind fun s1 => .ok (decide (s1 = 47#8)) else .ok false).bind fun dotSlash =>
      if dotSlash = true then pushLoop src (src.length - 1) 1 dst
      else .ok (dst ++ [47#8] ++ src)

/-- path.n:62-68 `join`. -/
def join (dst : Str) : List Str → Res Str
  | [] => .ok dst
  | src :: list => (join2 dst src).bind fun dst => join dst list

end Nature.Path
