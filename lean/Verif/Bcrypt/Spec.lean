import Verif.Blowfish.Spec

/-!
# bcrypt, as published

The specification side of C106, after N. Provos and D. Mazières, "A Future-Adaptable Password
Scheme" (1999), and the usual textual form `$2a$cost$salt hash`.  It does not mention the model.
`init` is the initial state of Blowfish.
-/

namespace Nature.Bcrypt.Spec

open Nature.Blowfish.Spec (Word Byte word bytes expand expandSalted encipher)

/-- The characters of an ASCII text. -/
def ascii (s : String) : List Byte := s.toList.map fun c => BitVec.ofNat 8 c.toNat

/-- The 64 digits. -/
def digits : List Byte :=
  ascii "./ABCDEFGHIJKLMNOPQRSTUVWXYZabcdefghijklmnopqrstuvwxyz0123456789"

/-- Digit number `n`. -/
def digit (n : Nat) : Byte := digits.getD n 0

/-- Three bytes are four digits; one or two bytes at the end are two or three digits. -/
def radix64 : List Byte → List Byte
  | a :: b :: c :: rest =>
    let n := a.toNat * 65536 + b.toNat * 256 + c.toNat
    digit (n / 262144) :: digit (n / 4096 % 64) :: digit (n / 64 % 64) :: digit (n % 64) ::
      radix64 rest
  | [a, b] =>
    let n := a.toNat * 65536 + b.toNat * 256
    [digit (n / 262144), digit (n / 4096 % 64), digit (n / 64 % 64)]
  | [a] =>
    let n := a.toNat * 65536
    [digit (n / 262144), digit (n / 4096 % 64)]
  | [] => []

/-- `f` applied `n` times. -/
def times {α : Type} (f : α → α) : Nat → α → α
  | 0, x => x
  | n + 1, x => times f n (f x)

/-- EksBlowfishSetup: one salted expansion, then `2 ^ cost` times the key and the salt. -/
def setup (init : List Word) (cost : Nat) (salt key : List Byte) : List Word :=
  times (fun T => expand (expand T key) salt) (2 ^ cost) (expandSalted init key salt)

/-- The password with its terminating zero is the key; the six words of
"OrpheanBeholderScryDoubt" are enciphered 64 times, two at a time; the last byte is dropped. -/
def digest (init : List Word) (cost : Nat) (salt password : List Byte) : List Byte :=
  let T := setup init cost salt (password ++ [0])
  let a := times (encipher T) 64 (0x4f727068#32, 0x65616e42#32)
  let b := times (encipher T) 64 (0x65686f6c#32, 0x64657253#32)
  let c := times (encipher T) 64 (0x63727944#32, 0x6f756274#32)
  (bytes a.1 ++ bytes a.2 ++ bytes b.1 ++ bytes b.2 ++ bytes c.1 ++ bytes c.2).take 23

/-- The text of a hash. -/
def text (init : List Word) (cost : Nat) (salt password : List Byte) : List Byte :=
  ascii "$2a$" ++ [BitVec.ofNat 8 (48 + cost / 10), BitVec.ofNat 8 (48 + cost % 10)] ++
    ascii "$" ++ radix64 salt ++ radix64 (digest init cost salt password)

example : ascii "OrpheanBeholderScryDoubt" = bytes 0x4f727068#32 ++ bytes 0x65616e42#32 ++
    bytes 0x65686f6c#32 ++ bytes 0x64657253#32 ++ bytes 0x63727944#32 ++ bytes 0x6f756274#32 := by
  decide

end Nature.Bcrypt.Spec
