import Verif.Ifunc.Spec

/-!
# Model of the stubs for functions that are chosen at start-up

`/repo/src/ld/ld_elf_ifunc.c:17-167`.  `|` of fields that do not overlap is `+`; `&` of a signed number with a
mask of ones is the remainder.
-/

namespace Nature.Ifunc

/-- Errors. -/
inductive Err where
  | unaligned | range
  deriving DecidableEq, Repr

/-- `ld_elf_ifunc_write_u32`, ld_elf_ifunc.c:17-22. -/
def writeU32 (v : Nat) : List Nat := [v % 256, v / 2 ^ 8 % 256, v / 2 ^ 16 % 256, v / 2 ^ 24 % 256]

/-- `ld_elf_ifunc_encode_x86_64`, ld_elf_ifunc.c:29-67. -/
def encodeAmd64 (entry got : Nat) : Except Err (List Nat) :=
  if entry > 2 ^ 64 - 1 - 10 then .error .range
  else
    let next : Nat := entry + 10
    let displacement : Except Err Int :=
      if got ≥ next then
        let magnitude : Nat := got - next
        if magnitude > 2 ^ 31 - 1 then .error .range else .ok (magnitude : Int)
      else
        let magnitude : Nat := next - got
        if magnitude > 0x80000000 then .error .range else .ok (-(magnitude : Int))
    match displacement with
    | .error err => .error err
    | .ok d => .ok ([0xf3, 0x0f, 0x1e, 0xfa, 0xff, 0x25] ++ writeU32 (d % 2 ^ 32).toNat ++
        [0xcc, 0xcc, 0xcc, 0xcc, 0xcc, 0xcc])

/-- `ld_elf_ifunc_encode_aarch64`, ld_elf_ifunc.c:69-109. -/
def encodeArm64 (entry got : Nat) : Except Err (List Nat) :=
  if entry % 4 ≠ 0 ∨ got % 8 ≠ 0 then .error .unaligned
  else
    let entryPage : Nat := entry / 2 ^ 12
    let gotPage : Nat := got / 2 ^ 12
    let delta : Except Err Int :=
      if gotPage ≥ entryPage then
        let magnitude : Nat := gotPage - entryPage
        if magnitude > 0xfffff then .error .range else .ok (magnitude : Int)
      else
        let magnitude : Nat := entryPage - gotPage
        if magnitude > 0x100000 then .error .range else .ok (-(magnitude : Int))
    match delta with
    | .error err => .error err
    | .ok d =>
      let pages := (d % 2 ^ 21).toNat
      let offset := got % 2 ^ 12
      .ok (writeU32 (0x90000010 + pages % 4 * 2 ^ 29 + pages / 4 % 2 ^ 19 * 2 ^ 5) ++
        writeU32 (0xf9400211 + offset / 8 * 2 ^ 10) ++ writeU32 0xd61f0220 ++ writeU32 0xd503201f)

/-- `ld_elf_ifunc_encode_riscv64`, ld_elf_ifunc.c:111-158. -/
def encodeRiscv64 (entry got : Nat) : Except Err (List Nat) :=
  if entry % 4 ≠ 0 ∨ got % 8 ≠ 0 then .error .unaligned
  else
    let delta : Except Err Int :=
      if got ≥ entry then
        let magnitude : Nat := got - entry
        if magnitude > 0x7ffff7ff then .error .range else .ok (magnitude : Int)
      else
        let magnitude : Nat := entry - got
        if magnitude > 0x80000000 then .error .range else .ok (-(magnitude : Int))
    match delta with
    | .error err => .error err
    | .ok d =>
      let rounded := d + 0x800
      let high : Int := if rounded ≥ 0 then rounded.tdiv 0x1000 else -((-rounded + 0xfff).tdiv 0x1000)
      let low := d - high * 0x1000
      if high < -0x80000 ∨ high > 0x7ffff ∨ low < -0x800 ∨ low > 0x7ff then .error .range
      else
        .ok (writeU32 (0x00000e17 + (high % 2 ^ 20).toNat * 2 ^ 12) ++
          writeU32 (0x000e3e03 + (low % 2 ^ 12).toNat * 2 ^ 20) ++ writeU32 0x000e0367 ++
          writeU32 0x00000013)

/-- `ld_elf_ifunc_encode_pltgot`, ld_elf_ifunc.c:160-177. -/
def encode (arch : Arch) (entry got : Nat) : Except Err (List Nat) :=
  match arch with
  | .amd64 => encodeAmd64 entry got
  | .arm64 => encodeArm64 entry got
  | .riscv64 => encodeRiscv64 entry got

end Nature.Ifunc
