import Verif.Fmt.Spec
import Verif.Fmt.Scan
/-
What `sscanf` is used for: a text laid out as separators and items is read with a format that has the same separators
and a directive for each item.
-/
namespace Nature.Fmt

/-- `l` is a sequence of digits (leading zeros allowed) that stands for `n`. -/
def Digits (base : Nat) (l : List Byte) (n : Nat) : Prop := l ≠ [] ∧ value base l = some n

/-- What is to be read: an integer of a type with N bits, in decimal or hexadecimal, or a word. -/
inductive Item
  | dec (N : Nat) (v : Int)
  | udec (N : Nat) (n : Nat)
  | hex (N : Nat) (n : Nat)
  | word (w : List Byte)

/-- The letter of its directive. -/
def Item.verb : Item → Byte
  | .dec _ _ | .udec _ _ => 100
  | .hex _ _ => 120
  | .word _ => 115

/-- Where it goes. -/
def Item.ptr : Item → Ptr
  | .dec N _ => .int N
  | .udec N _ | .hex N _ => .uint N
  | .word _ => .str

/-- What should be stored there. -/
def Item.val : Item → Val
  | .dec _ v => .int v
  | .udec _ n | .hex _ n => .uint n
  | .word w => .str w

/-- The ways it can be written. -/
def Item.Text : Item → List Byte → Prop
  | .dec N v, l => 0 < N ∧ N ≤ 64 ∧ InRange N v ∧
      ∃ d, Digits 10 d v.natAbs ∧ ((l = 45 :: d ∧ v ≤ 0) ∨ ((l = d ∨ l = 43 :: d) ∧ 0 ≤ v))
  | .udec N n, l => N ≤ 64 ∧ n < 2 ^ N ∧ ∃ d, Digits 10 d n ∧ (l = d ∨ l = 43 :: d)
  | .hex N n, l => N ≤ 64 ∧ n < 2 ^ N ∧ Digits 16 l n
  | .word w, l => w ≠ [] ∧ 32 ∉ w ∧ l = w

/-- What follows it in the text is not taken for a part of it. -/
def Item.Stop : Item → List Byte → Prop
  | .dec _ _, r | .udec _ _, r => ∀ c, r.head? = some c → ¬ (48 ≤ c ∧ c ≤ 57)
  | .hex _ _, r => ∀ c, r.head? = some c → digitVal c = none
  | .word _, r => r = [] ∨ r.head? = some 32

/-- A separator, an item and how it is written. -/
structure Seg where
  sep : List Byte
  item : Item
  text : List Byte

def textOf (l : List Seg) : List Byte := l.flatMap fun s => s.sep ++ s.text

def formatOf (l : List Seg) : List Byte := l.flatMap fun s => s.sep ++ [37, s.item.verb]

/-- A layout that can be read. -/
def WF : List Seg → Prop
  | [] => True
  | s :: r => 37 ∉ s.sep ∧ s.item.Text s.text ∧ s.item.Stop (textOf r) ∧ WF r

end Nature.Fmt
