import Verif.Layout.Input

/-!
# What a layout has to be
-/

namespace Nature.Layout.Spec

/-- Zeroed thread-local storage: it has no memory of its own in the program. -/
def Tbss (s : Sec) : Prop := s.tls = true ∧ s.ty = .nobits

/-- The contents of a section in the file are at its address when the segment is loaded: the loader puts
the byte of the file at `seg.off + k` at `seg.addr + k`, for all `k < seg.fileSize`. -/
def LoadedBy (seg : Segment) (p : Placed) : Prop :=
  ∃ k, p.off = seg.off + k ∧ p.addr = seg.addr + k ∧ k + p.sec.fileSize ≤ seg.fileSize

/-- The memory of a section is in a segment. -/
def InMemory (seg : Segment) (p : Placed) : Prop :=
  seg.addr ≤ p.addr ∧ p.addr + p.sec.size ≤ seg.addr + seg.memSize

/-- Address and place in the file are multiples of the alignment; zero stands for no alignment. -/
def Aligned (p : Placed) : Prop :=
  p.sec.align = 0 ∨ (p.addr % p.sec.align = 0 ∧ p.off % p.sec.align = 0)

/-- All bytes of a section are in the file, or, if it is to be zeroed, none. -/
def Sized (s : Sec) : Prop := s.fileSize = if s.ty = .nobits then 0 else s.size

/-- The alignment of a section divides an address. -/
def Fits (base : Nat) (s : Sec) : Prop := s.align = 0 ∨ base % s.align = 0

/-- The first section ends, in memory and in the file, before the second begins. -/
def Apart (p q : Placed) : Prop :=
  ¬ Tbss p.sec → p.addr + p.sec.size ≤ q.addr ∧ p.off + p.sec.fileSize ≤ q.off

/-- Sections that programs write only while they are being relocated: thread-local templates, arrays of
constructors, `.data.rel.ro`, `.bss.rel.ro`, the global offset table and `.dynamic`. -/
def ReadOnlyLater (s : Sec) : Prop :=
  s.size ≠ 0 ∧ s.alloc = true ∧ s.write = true ∧
    ((s.tls = true ∧ s.ty ≠ .nobits) ∨
     (s.tls = false ∧ (s.ty = .preinitArray ∨ s.ty = .initArray ∨ s.ty = .finiArray ∨
       s.name = ".data.rel.ro" ∨ (∃ x, s.name.toList = ".data.rel.ro.".toList ++ x) ∨
       s.name = ".bss.rel.ro" ∨ (∃ x, s.name.toList = ".bss.rel.ro.".toList ++ x) ∨
       s.name = ".got" ∨ s.name = ".dynamic")))

end Nature.Layout.Spec
