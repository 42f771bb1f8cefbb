import Verif.Fmt.Model
/-
Model of the dynamic part of /repo/std/json/json.n: `parse`, `serialize` of the values `parse` gives, and the incremental
`reader_t`.

The cursor into the data is modelled by the bytes that remain; `none` is a thrown error (what it says is not modelled).
`depth` and `max_depth` are modelled by the number of containers that may still be entered.
-/
namespace Nature.Json

abbrev Byte := UInt8

/-- A dynamic value: what `any` holds after `parse` (json.n:905-907).  A number is its token, an object is its entries in
the order of insertion: map keys and values lie in insertion order in `key_data` and `value_data` as long as nothing is
removed. -/
inductive V
  | null
  | bool (b : Bool)
  | num (tok : List Byte)
  | str (s : List Byte)
  | arr (l : List V)
  | obj (m : List (List Byte × V))

/-! ### Lexical helpers -/

/-- json.n:1170-1172 `json_space`, the same test as in 748. -/
def isSpace (c : Byte) : Bool := c = 32 || c = 9 || c = 13 || c = 10

/-- json.n:745-754 `skip_whitespace`. -/
def skipWs (s : List Byte) : List Byte := s.dropWhile isSpace

/-- json.n:756-758 `is_digit`. -/
def isDigit (c : Byte) : Bool := 48 ≤ c && c ≤ 57

/-- The bytes of `lit` removed from the front. -/
def stripPrefix : List Byte → List Byte → Option (List Byte)
  | [], s => some s
  | _ :: _, [] => none
  | c :: l, d :: s => if d = c then stripPrefix l s else none

/-- json.n:760-778 `consume` (`none`: false; that the cursor has moved over whitespace then is not modelled: every caller
goes on with `consume`, `must` or an error), and 780-784 `must` (`none`: error). -/
def consume (lit s : List Byte) : Option (List Byte) := stripPrefix lit (skipWs s)

/-! ### Strings -/

/-- json.n:804-813, 889-899: the value of a hexadecimal digit. -/
def hexDigit (c : Byte) : Option Nat :=
  if 48 ≤ c ∧ c ≤ 57 then some (c - 48).toNat
  else if 97 ≤ c ∧ c ≤ 102 then some ((c - 97).toNat + 10)
  else if 65 ≤ c ∧ c ≤ 70 then some ((c - 65).toNat + 10)
  else none

/-- json.n:797-819 `parser_hex4` (`none`: error) and 882-903 `hex4_peek` (`none`: -1). -/
def hex4 : List Byte → Option (Nat × List Byte)
  | a :: b :: c :: d :: t =>
    (hexDigit a).bind fun a => (hexDigit b).bind fun b => (hexDigit c).bind fun c => (hexDigit d).bind fun d =>
      some ((((0 * 16 + a) * 16 + b) * 16 + c) * 16 + d, t)
  | _ => none

/-- json.n:821-844 `append_utf8`: the bytes appended. -/
def appendUtf8 (cp : Nat) : List Byte :=
  let cp := if cp > 0x10FFFF ∨ (cp ≥ 0xD800 ∧ cp ≤ 0xDFFF) then 0xFFFD else cp
  if cp ≤ 0x7F then [UInt8.ofNat cp]
  else if cp ≤ 0x7FF then [UInt8.ofNat (0xC0 ||| (cp >>> 6)), UInt8.ofNat (0x80 ||| (cp &&& 0x3F))]
  else if cp ≤ 0xFFFF then
    [UInt8.ofNat (0xE0 ||| (cp >>> 12)), UInt8.ofNat (0x80 ||| ((cp >>> 6) &&& 0x3F)), UInt8.ofNat (0x80 ||| (cp &&& 0x3F))]
  else
    [UInt8.ofNat (0xF0 ||| (cp >>> 18)), UInt8.ofNat (0x80 ||| ((cp >>> 12) &&& 0x3F)),
      UInt8.ofNat (0x80 ||| ((cp >>> 6) &&& 0x3F)), UInt8.ofNat (0x80 ||| (cp &&& 0x3F))]

/-- json.n:865-869: the bytes after the first are continuation bytes. -/
def isCont (c : Byte) : Bool := !(c < 0x80 || c > 0xBF)

/-- json.n:851-860: the length the first byte announces, 0 if it cannot start a sequence. -/
def leadLen (first : Byte) : Nat :=
  if first ≥ 0xC2 ∧ first ≤ 0xDF then 2
  else if first ≥ 0xE0 ∧ first ≤ 0xEF then 3
  else if first ≥ 0xF0 ∧ first ≤ 0xF4 then 4
  else 0

/-- json.n:871-877: second bytes that make an overlong form, a surrogate or too large a number. -/
def badSecond (first second : Byte) : Bool :=
  (first == 0xE0 && second < 0xA0) || (first == 0xED && second > 0x9F) || (first == 0xF0 && second < 0x90) ||
    (first == 0xF4 && second > 0x8F)

/-- json.n:846-879 `utf8_len`. -/
def utf8Len : List Byte → Nat
  | [] => 0
  | first :: t =>
    let length := leadLen first
    if length = 0 then 0
    else if length > t.length + 1 then 0
    else if ((t.take (length - 1)).all isCont) = false then 0
    else match t with
      | [] => length
      | second :: _ => if badSecond first second then 0 else length

/-- json.n:592-600: the escapes of one letter. -/
def escape (e : Byte) : Option Byte :=
  if e = 34 then some 34
  else if e = 92 then some 92
  else if e = 47 then some 47
  else if e = 98 then some 8
  else if e = 102 then some 12
  else if e = 110 then some 10
  else if e = 114 then some 13
  else if e = 116 then some 9
  else none

/-- json.n:608-612: the low surrogate that follows, if one does. -/
def lowSurrogate : List Byte → Option (Nat × List Byte)
  | 92 :: 117 :: t =>
    match hex4 t with
    | some (low, t) => if low ≥ 0xDC00 ∧ low ≤ 0xDFFF then some (low, t) else none
    | none => none
  | _ => none

/-- json.n:604-628: after `\u` and its four digits: the code point and what remains. -/
def surrogates (cp : Nat) (t : List Byte) : Nat × List Byte :=
  if cp ≥ 0xD800 ∧ cp ≤ 0xDBFF then
    match lowSurrogate t with
    | some (low, t) => (0x10000 + ((cp - 0xD800) <<< 10) + (low - 0xDC00), t)
    | none => (0xFFFD, t)
  else if cp ≥ 0xDC00 ∧ cp ≤ 0xDFFF then (0xFFFD, t)
  else (cp, t)

/-- json.n:578-660: the string after its opening quote: its bytes and what remains after the closing quote.  The fuel is
more than the number of bytes. -/
def stringBody : Nat → List Byte → Option (List Byte × List Byte)
  | 0, _ => none
  | _ + 1, [] => none
  | n + 1, c :: t =>
    if c = 34 then some ([], t)
    else if c = 92 then
      match t with
      | [] => none
      | e :: t =>
        if e = 117 then
          match hex4 t with
          | none => none
          | some (cp, t) =>
            let (cp, t) := surrogates cp t
            (stringBody n t).map fun p => (appendUtf8 cp ++ p.1, p.2)
        else
          match escape e with
          | none => none
          | some b => (stringBody n t).map fun p => (b :: p.1, p.2)
    else if c < 0x20 then none
    else if c < 0x80 then (stringBody n t).map fun p => (c :: p.1, p.2)
    else
      let k := utf8Len (c :: t)
      if k = 0 then (stringBody n t).map fun p => (0xEF :: 0xBF :: 0xBD :: p.1, p.2)
      else (stringBody n ((c :: t).drop k)).map fun p => ((c :: t).take k ++ p.1, p.2)

/-- json.n:572-661 `parser_string`. -/
def parserString (s : List Byte) : Option (List Byte × List Byte) :=
  (consume [34] s).bind fun t => stringBody (t.length + 1) t

/-! ### Numbers -/

/-- A run of digits and what remains. -/
def digitRun : List Byte → List Byte × List Byte
  | [] => ([], [])
  | c :: t => if isDigit c then (c :: (digitRun t).1, (digitRun t).2) else ([], c :: t)

/-- json.n:1006-1008 -/
def numSign : List Byte → List Byte × List Byte
  | 45 :: t => ([45], t)
  | t => ([], t)

/-- json.n:1009-1025: the integer part. -/
def numInt : List Byte → Option (List Byte × List Byte)
  | [] => none
  | c :: t =>
    if c = 48 then
      match t with
      | [] => some ([48], [])
      | d :: t => if isDigit d then none else some ([48], d :: t)
    else if 49 ≤ c ∧ c ≤ 57 then some (digitRun (c :: t))
    else none

/-- json.n:1029-1033, 1044-1049: at least one digit. -/
def digits1 (t : List Byte) : Option (List Byte × List Byte) :=
  match digitRun t with
  | ([], _) => none
  | (ds, t) => some (ds, t)

/-- json.n:1027-1035: the fraction. -/
def numFrac : List Byte → Option (List Byte × List Byte)
  | 46 :: t => (digits1 t).map fun p => (46 :: p.1, p.2)
  | t => some ([], t)

/-- json.n:1040-1043 -/
def numExpSign : List Byte → List Byte × List Byte
  | 43 :: t => ([43], t)
  | 45 :: t => ([45], t)
  | t => ([], t)

/-- json.n:1037-1050: the exponent. -/
def numExp : List Byte → Option (List Byte × List Byte)
  | [] => some ([], [])
  | c :: t =>
    if c = 101 ∨ c = 69 then
      (digits1 (numExpSign t).2).map fun p => (c :: ((numExpSign t).1 ++ p.1), p.2)
    else some ([], c :: t)

/-- json.n:1001-1053 `parser_number_token`: the token is the bytes between the two cursors. -/
def numberToken (s : List Byte) : Option (List Byte × List Byte) :=
  let p := numSign (skipWs s)
  (numInt p.2).bind fun (i, s) => (numFrac s).bind fun (f, s) => (numExp s).bind fun (e, s) => some (p.1 ++ i ++ f ++ e, s)

/-! ### Values -/

/-- `values[key] = …` (json.n:991): the value of an existing key is replaced in place, a new key goes to the end. -/
def insert (k : List Byte) (v : V) : List (List Byte × V) → List (List Byte × V)
  | [] => [(k, v)]
  | (k', v') :: m => if k' = k then (k, v) :: m else (k', v') :: insert k v m

/-- json.n:966-976: the elements of an array, up to and with the closing bracket.  `pv` is `parser_value`; the fuel is
more than the number of bytes. -/
def elems (pv : List Byte → Option (V × List Byte)) : Nat → List Byte → Option (List V × List Byte)
  | 0, _ => none
  | n + 1, s => (pv s).bind fun (v, s) =>
    match consume [93] s with
    | some s => some ([v], s)
    | none => (consume [44] s).bind fun s => (elems pv n s).map fun (vs, s) => (v :: vs, s)

/-- json.n:986-997: the members of an object, added to `acc`. -/
def members (pv : List Byte → Option (V × List Byte)) : Nat → List (List Byte × V) → List Byte →
    Option (List (List Byte × V) × List Byte)
  | 0, _, _ => none
  | n + 1, acc, s =>
    (parserString s).bind fun (k, s) => (consume [58] s).bind fun s => (pv s).bind fun (v, s) =>
      match consume [125] s with
      | some s => some (insert k v acc, s)
      | none => (consume [44] s).bind fun s => members pv n (insert k v acc) s

/-- json.n:959-977 `parser_value_array`, after `enter_container`. -/
def parserArray (pv : List Byte → Option (V × List Byte)) (s : List Byte) : Option (V × List Byte) :=
  (consume [91] s).bind fun s =>
    match consume [93] s with
    | some s => some (.arr [], s)
    | none => (elems pv (s.length + 1) s).map fun (vs, s) => (.arr vs, s)

/-- json.n:979-999 `parser_value_object`, after `enter_container`. -/
def parserObject (pv : List Byte → Option (V × List Byte)) (s : List Byte) : Option (V × List Byte) :=
  (consume [123] s).bind fun s =>
    match consume [125] s with
    | some s => some (.obj [], s)
    | none => (members pv (s.length + 1) [] s).map fun (m, s) => (.obj m, s)

/-- json.n:457-475 `parser_bool` -/
def parserBool (s : List Byte) : Option (V × List Byte) :=
  match consume [116, 114, 117, 101] s with
  | some s => some (.bool true, s)
  | none => (consume [102, 97, 108, 115, 101] s).map fun s => (.bool false, s)

/-- json.n:929-957 `parser_value`; `nested` parses a value one level deeper, unless that is too deep (`enter_container`,
786-791). -/
def valueWith (nested : Option (List Byte → Option (V × List Byte))) (s : List Byte) : Option (V × List Byte) :=
  match skipWs s with
  | [] => none
  | c :: _ =>
    if c = 110 then (consume [110, 117, 108, 108] (skipWs s)).map fun s => (.null, s)
    else if c = 116 ∨ c = 102 then parserBool (skipWs s)
    else if c = 34 then (parserString (skipWs s)).map fun (x, s) => (.str x, s)
    else if c = 91 then
      match nested with
      | none => none
      | some pv => parserArray pv (skipWs s)
    else if c = 123 then
      match nested with
      | none => none
      | some pv => parserObject pv (skipWs s)
    else (numberToken (skipWs s)).map fun (x, s) => (.num x, s)

/-- json.n:929-957 `parser_value`.  The number is how many containers may still be entered. -/
def parserValue : Nat → List Byte → Option (V × List Byte)
  | 0, s => valueWith none s
  | d + 1, s => valueWith (some (parserValue d)) s

/-- json.n:912-926 `parse_with_depth`, for a positive depth. -/
def parseWithDepth (d : Nat) (s : List Byte) : Option V :=
  (parserValue d s).bind fun (v, s) => if skipWs s = [] then some v else none

/-- json.n:17 -/
def maxDepth : Nat := 256

/-- json.n:908-910 `parse`. -/
def parse (s : List Byte) : Option V := parseWithDepth maxDepth s

/-! ### Serialisation -/

/-- json.n:115-172: the bytes between the quotes.  The fuel is the number of bytes. -/
def serializeBody : Nat → List Byte → List Byte
  | 0, _ => []
  | _ + 1, [] => []
  | n + 1, c :: t =>
    if c = 34 then 92 :: 34 :: serializeBody n t
    else if c = 92 then 92 :: 92 :: serializeBody n t
    else if c = 8 then 92 :: 98 :: serializeBody n t
    else if c = 12 then 92 :: 102 :: serializeBody n t
    else if c = 10 then 92 :: 110 :: serializeBody n t
    else if c = 13 then 92 :: 114 :: serializeBody n t
    else if c = 9 then 92 :: 116 :: serializeBody n t
    else if c < 32 then 92 :: 117 :: (Fmt.utosWith 16 97 c.toNat 48 4 ++ serializeBody n t)
    else if c < 0x80 then c :: serializeBody n t
    else
      let k := utf8Len (c :: t)
      if k = 0 then 92 :: 117 :: 102 :: 102 :: 102 :: 100 :: serializeBody n t
      else (c :: t).take k ++ serializeBody n ((c :: t).drop k)

/-- json.n:111-176 `serialize_string`. -/
def serializeString (s : List Byte) : List Byte := 34 :: (serializeBody s.length s ++ [34])

/-- Texts with commas between them (json.n:211-219, 245-247). -/
def commas : List (List Byte) → List Byte
  | [] => []
  | [t] => t
  | t :: ts => t ++ 44 :: commas ts

/-- json.n:26-109 `serialize_value` on dynamic values, with 201-221 `serialize_vec` and 223-252 `serialize_map`.  An
`any` that holds a `json.number` gives its token (93-95). -/
def serialize : V → List Byte
  | .null => [110, 117, 108, 108]
  | .bool true => [116, 114, 117, 101]
  | .bool false => [102, 97, 108, 115, 101]
  | .num tok => tok
  | .str s => serializeString s
  | .arr l => 91 :: (commas (l.attach.map fun v => serialize v.1) ++ [93])
  | .obj m => 123 :: (commas (m.attach.map fun e => serializeString e.1.1 ++ 58 :: serialize e.1.2) ++ [125])
termination_by v => v
decreasing_by
  all_goals simp_wf
  · have := List.sizeOf_lt_of_mem v.2; omega
  · have h1 := List.sizeOf_lt_of_mem e.2
    have h2 : sizeOf e.1 = 1 + sizeOf e.1.1 + sizeOf e.1.2 := by cases e.1; rfl
    omega

/-! ### The incremental reader -/

/-- json.n:1058-1068 `reader_t`; the bytes before `scan_cursor` are all the data. -/
structure Reader where
  data : List Byte := []
  containers : List Byte := []
  started : Bool := false
  inString : Bool := false
  escaped : Bool := false
  scalar : Bool := false
  complete : Bool := false
deriving DecidableEq, Repr

/-- json.n:1080-1158: the loop body of `write`, for one byte; `none`: an error is thrown.  `containers` has its top
first. -/
def Reader.step (r : Reader) (c : Byte) : Option Reader :=
  let r := { r with data := r.data ++ [c] }
  if r.complete then
    if isSpace c then some r else none
  else if !r.started then
    if isSpace c then some r
    else if c = 34 then some { r with started := true, inString := true, scalar := true }
    else if c = 123 ∨ c = 91 then some { r with started := true, containers := c :: r.containers }
    else some { r with started := true, scalar := true }
  else if r.inString then
    if r.escaped then some { r with escaped := false }
    else if c = 92 then some { r with escaped := true }
    else if c = 34 then
      if r.scalar ∧ r.containers = [] then some { r with inString := false, complete := true }
      else some { r with inString := false }
    else if c < 0x20 then none
    else some r
  else if r.scalar then
    if isSpace c then some { r with complete := true } else some r
  else if c = 34 then some { r with inString := true }
  else if c = 123 ∨ c = 91 then
    if (c :: r.containers).length > maxDepth then none else some { r with containers := c :: r.containers }
  else if c = 125 ∨ c = 93 then
    match r.containers with
    | [] => none
    | o :: rest =>
      if (o = 123 ∧ c ≠ 125) ∨ (o = 91 ∧ c ≠ 93) then none
      else if rest = [] then some { r with containers := rest, complete := true }
      else some { r with containers := rest }
  else some r

/-- json.n:1077-1161 `write`: the state after a chunk; what is returned is its `complete`. -/
def Reader.write (r : Reader) (chunk : List Byte) : Option Reader := chunk.foldlM Reader.step r

/-- json.n:1163-1168 `value`. -/
def Reader.value (r : Reader) : Option V := if r.complete then parseWithDepth maxDepth r.data else none

end Nature.Json
