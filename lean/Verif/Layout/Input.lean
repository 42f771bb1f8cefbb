/-!
# Sections and segments
-/

namespace Nature.Layout

/-- The types of sections that the layout tells apart. -/
inductive Ty where
  | progbits
  | nobits
  | preinitArray
  | initArray
  | finiArray
  | other
  deriving DecidableEq, Repr

/-- An output section: `size` bytes in memory, `fileSize` of them in the file. -/
structure Sec where
  name : String
  ty : Ty
  alloc : Bool
  write : Bool
  exec : Bool
  tls : Bool
  size : Nat
  fileSize : Nat
  align : Nat
  deriving DecidableEq, Repr

/-- A section with its address and its place in the file. -/
structure Placed where
  sec : Sec
  addr : Nat
  off : Nat
  deriving DecidableEq, Repr

/-- A segment that the loader maps. -/
structure Segment where
  off : Nat
  addr : Nat
  fileSize : Nat
  memSize : Nat
  exec : Bool
  write : Bool
  deriving DecidableEq, Repr

end Nature.Layout
