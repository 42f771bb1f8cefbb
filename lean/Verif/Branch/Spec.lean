import Verif.Branch.Model
import Verif.Amd64.Spec
/-! What the text section must do. -/
namespace Nature.Branch.Spec
open Nature.Amd64 Nature.Amd64.Spec

/-- The text section. -/
def text (ps : List Piece) : List Nat := (ps.map (·.bytes)).flatten

/-- The address of entry `k` in the text section: the bytes in front of it. -/
def addr (ps : List Piece) (k : Nat) : Nat := (text (ps.take k)).length

/-- An immediate of `n` bytes as the processor uses it in a branch. -/
def signed (n v : Nat) : Int := if 2 * v < 256 ^ n then v else (v : Int) - 256 ^ n

/-- The calls and jumps. -/
def isBranch (n : Name) : Bool :=
  [Name.call, .jmp, .je, .jne, .ja, .jae, .jb, .jbe, .jg, .jge, .jl, .jle].contains n

/-- The processor, fetching at `a`, finds the branch `n` and, when it takes it, goes on at `b` (which may lie
outside the text, hence an integer). -/
def Branches (t : List Nat) (n : Name) (a : Nat) (b : Int) : Prop :=
  ∃ m ∈ mnems n [], ∃ w v rest, decode (t.drop a) = some (⟨m, [.imm w v]⟩, rest) ∧
    ((t.length - rest.length : Nat) : Int) + signed w v = b

/-- The linker's relocation formula for a PC-relative entry: symbol plus addend minus place. -/
def linked (r : Rela) (base sym : Int) : Int := sym + r.addend - (base + r.offset)

/-- The text with the four bytes at a place replaced by a number. -/
def patch (t : List Nat) (p : Nat) (d : Int) : List Nat := t.take p ++ int32Bytes d ++ t.drop (p + 4)

/-- No name is defined twice. -/
def Distinct (prog : List Item) : Prop :=
  ∀ (j k : Nat) (s : Sym), prog[j]? = some (.label s) → prog[k]? = some (.label s) → j = k

/-- No branch to a symbol comes after a reference to it with the symbol not yet defined. -/
def RefsAfter (prog : List Item) : Prop :=
  ∀ (j k : Nat) (n : Name) (s : Sym) (i : Inst) (tls : Bool), prog[k]? = some (.br n s) → j < k →
    prog[j]? = some (.ref i s tls) → ∃ m < k, prog[m]? = some (.label s)

/-- A displacement put into the place of the symbol. -/
def setDisp (d : Int) : Operand → Operand
  | .rip _ s => .rip d s
  | .seg s _ => .seg s d
  | o => o

/-- The instruction a reference stands for once the symbol is known. -/
def withDisp (i : Inst) (d : Int) : Inst := { i with ops := i.ops.map (setDisp d) }

/-- A register or an immediate (of a definite width). -/
def isPlain : Operand → Bool
  | .reg _ | .u8 _ | .u16 _ | .u32 _ | .u64 _ => true
  | _ => false

/-- An instruction with one symbol operand, in the form it has before the symbol is known, the others being
registers and immediates. -/
def RefOk (i : Inst) (tls : Bool) : Prop :=
  ∃ pre o post, i.ops = pre ++ o :: post ∧ (∀ x ∈ pre ++ post, isPlain x = true) ∧
    ((tls = false ∧ ∃ s, o = .rip 0 s) ∨ (tls = true ∧ o = .seg .fs 0))

end Nature.Branch.Spec
