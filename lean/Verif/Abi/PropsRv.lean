import Verif.Abi.RvCall
import Verif.Abi.PropsArm
/-
C79, C80 on riscv64.
-/
namespace Nature.Abi
open Nature.TypeLayout

/-- C79, riscv64.  For every result type and argument list that fit (`Rv.fits`: no struct is empty or has 65536 bytes or more, a
struct of up to 16 bytes is as `Rv.okTy` says, and the positions for the result can be computed): the call and the start of the
called function are lowered, and executing the one and then the other gives the called function its arguments, in the sense of
`Received`; of a struct what is in its fields (`fieldByte`: the bytes between the fields may be lost).  What the call uses of the
memory (`Arm.Used`) is its part of the stack below the caller's frame and the copies in the caller's frame.  When the result goes
through memory the called function has the address of the storage the caller made for it.  `argBytes` bytes at the stack pointer
are reserved for arguments and do not reach into the caller's frame. -/
theorem C79_riscv64_partial (rt : Option Ty) (ts : List Ty) (hf : Rv.fits rt ts = true) (soC so : Nat) (hso : so % 8 = 0) (ec ee : Env)
    (hfp : ee.fp = ec.sp - 16) (adr : Nat → Int) (s0 : State) :
    ∃ cops soC' pops so', Rv.lowerCall rt ts soC = some (cops, soC') ∧ Rv.lowerBegin rt ts so = some (pops, so') ∧
      (ec.sp + Rv.argBytes rt ts ≤ ec.fp - soC' → Sent ts adr (Arm.Used ec.sp ec.fp (Rv.argBytes rt ts) soC soC' so') s0 →
        ∃ s1 s2, exec ec cops s0 = some s1 ∧ exec ee pops s1 = some s2 ∧
          Received fieldByte ts adr (Arm.Used ec.sp ec.fp (Rv.argBytes rt ts) soC soC' so') s0 s2 ∧
          (Rv.viaMem rt = true → PtrAt s2 (.var (.formal ts.length)) (ec.fp - soC'))) :=
  Rv.args_ok hfp hf hso

/-- Structs in one and two registers of either kind, an array and a large struct by address, a struct split between the last
register and the stack, a struct on the stack, and scalars everywhere. -/
def rvTypes : List Ty :=
  [.agg (.cons (.scal .f32) (.cons (.scal .f32) .nil)), .agg (.cons (.scal .f64) (.cons (.scal .i32) .nil)),
   .agg (.cons (.scal .i64) (.cons (.scal .i8) .nil)), .arr 3 (.scal .i64), .scal .i8, .scal .f64,
   .agg (.cons (.scal .i64) (.cons (.scal .i64) (.cons (.scal .i64) .nil))),
   .agg (.cons (.scal .i64) (.cons (.scal .i64) .nil)), .agg (.cons (.scal .i16) .nil), .arr 2 (.scal .i32), .scal .i16]

example : Rv.fits (some (.arr 9 (.scal .i64))) rvTypes = true ∧ Rv.viaMem (some (.arr 9 (.scal .i64))) = true ∧
    ((Rv.pcs rvTypes 1 0 32).map fun r => r.1.map fun p => (p.main, p.attach.map fun a => a.1)) =
      some [(16, some 18), (20, some 2), (4, some 6), (9, none), (10, none), (22, none), (13, none), (14, some 32), (40, none), (49, none), (56, none)] ∧
    Rv.argBytes (some (.arr 9 (.scal .i64))) rvTypes = 32 ∧
    (∃ c p, Rv.lowerCall (some (.arr 9 (.scal .i64))) rvTypes 64 = some (c, 192) ∧ Rv.lowerBegin (some (.arr 9 (.scal .i64))) rvTypes 32 = some (p, 96)) ∧
    ∃ s0, Sent rvTypes (fun _ => 5000) (Arm.Used 1000 2000 32 64 192 96) s0 := by
  refine ⟨by decide +kernel, by decide +kernel, by decide +kernel, by decide +kernel, ⟨_, _, rfl, rfl⟩, callState fun _ => 5000, ⟨fun i t _ _ =>
    ⟨fun k _ => rfl, fun k _ => ?_⟩⟩⟩
  unfold Arm.Used Range; omega

/-- A call executed: what the caller does, then what the called function does. -/
def Rv.runCall (rt : Option Ty) (ts : List Ty) (soC so : Nat) (ec ee : Env) (s0 : State) : Option State := do
  let c ← Rv.lowerCall rt ts soC
  let p ← Rv.lowerBegin rt ts so
  exec ee p.1 (← exec ec c.1 s0)

/-- C79 fails on riscv64 for structs of up to 16 bytes with two floating point numbers and then an array of up to two elements
(`{ f32, f32, [u8;2] }`), or with an array of arrays after the first float (`{ f32, [[u8;3];2] }`): the compiler writes outside an
array of its own while it looks for the positions. -/
theorem C79_riscv64_bounds_counterexample :
    Rv.lowerCall none [.agg (.cons (.scal .f32) (.cons (.scal .f32) (.cons (.arr 2 (.scal .i8)) .nil)))] 0 = none ∧
    Rv.lowerCall none [.agg (.cons (.scal .f32) (.cons (.arr 2 (.arr 3 (.scal .i8))) .nil))] 0 = none := by
  refine ⟨by decide +kernel, by decide +kernel⟩

/-- C79 fails on riscv64 when an argument is an empty struct: it takes no register, but a byte is put in a0 for it, over what is
there for another argument (here an integer, after a struct `{ }`). -/
theorem C79_riscv64_empty_counterexample :
    ∃ s2, Rv.runCall none [.scal .i64, .agg .nil] 0 0 ⟨1000, 2000⟩ ⟨500, 984⟩ (callState fun _ => 5000) = some s2 ∧
      ∀ used : Int → Prop, (∀ a, used a → a < 5000) →
        Sent [.scal .i64, .agg .nil] (fun _ => 5000) used (callState fun _ => 5000) ∧
        ¬ Received fieldByte [.scal .i64, .agg .nil] (fun _ => 5000) used (callState fun _ => 5000) s2 := by
  have h : (Rv.runCall none [.scal .i64, .agg .nil] 0 0 ⟨1000, 2000⟩ ⟨500, 984⟩ (callState fun _ => 5000)).map
      (fun s => s (.var (.formal 0) 0)) = some (callState (fun _ => 5000) (.mem 5000)) := by
    decide +kernel
  obtain ⟨s2, h1, h2⟩ := Option.map_eq_some_iff.1 h
  refine ⟨s2, h1, fun used hu => ⟨⟨fun i t _ _ => ⟨fun k _ => rfl, fun k _ hk => ?_⟩⟩, fun hr => ?_⟩⟩
  · have := hu _ hk; omega
  · have := hr.scalar 0 .i64 rfl 0 (by decide)
    rw [h2] at this
    exact absurd this (by decide +kernel)

/-! ### Results -/

/-- C80, riscv64.  For every result type as `Rv.retOk` says (a scalar; an array of 17 to 255 bytes; a struct of up to 255 bytes,
and if it has up to 16 bytes it is as `Rv.okTy` says and does not have a floating point number first and an integer second):
executing what `return` is lowered to and then what follows the call gives the caller the result, in the sense of `Returned`.  An
object that goes through memory has its storage (at `b`) before the call; otherwise the caller makes the storage afterwards. -/
theorem C80_riscv64_partial (t : Ty) (hs : Rv.retOk t = true) (so : Nat) (r b : Int) (e e' : Env) (s3 : State)
    (h : Returning t (if Rv.memResIn t then [.big, .res] else []) r b s3)
    (hb : Rv.memResIn t = false → t.ind = true → b = e'.fp - allocOff so t) :
    ∃ rops lops s4 s5, Rv.lowerReturn t = some rops ∧ Rv.lowerResult t so = some lops ∧ exec e rops s3 = some s4 ∧ exec e' lops s4 = some s5 ∧
      Returned fieldByte t r b s3 s5 :=
  Rv.ret_ok hs h hb

example : Rv.memResIn (.arr 5 (.scal .i64)) = true ∧ Rv.retOk (.arr 5 (.scal .i64)) = true ∧
    ∃ s3, Returning (.arr 5 (.scal .i64)) [.big, .res] 1000 1040 s3 :=
  ⟨by decide +kernel, by decide +kernel, _, retState_returning (.arr 5 (.scal .i64)) [.big, .res] (by simp)⟩
example : Rv.memResIn (.agg (.cons (.scal .i32) (.cons (.scal .f64) .nil))) = false ∧ Rv.retOk (.agg (.cons (.scal .i32) (.cons (.scal .f64) .nil))) = true ∧
    allocOff 32 (.agg (.cons (.scal .i32) (.cons (.scal .f64) .nil))) = 48 ∧
    ∃ s3, Returning (.agg (.cons (.scal .i32) (.cons (.scal .f64) .nil))) [] 1000 1016 s3 :=
  ⟨by decide +kernel, by decide +kernel, by decide +kernel, _, retState_returning (.agg (.cons (.scal .i32) (.cons (.scal .f64) .nil))) [] (by simp)⟩

/-- A return executed: what the called function does, then what the caller does. -/
def Rv.runReturn (t : Ty) (so : Nat) (e e' : Env) (s3 : State) : Option State := do
  exec e' (← Rv.lowerResult t so) (← exec e (← Rv.lowerReturn t) s3)

theorem Rv.runReturn_some {t : Ty} {so : Nat} {e e' : Env} {s3 s5 : State} (h : Rv.runReturn t so e e' s3 = some s5) :
    ∃ rops lops s4, Rv.lowerReturn t = some rops ∧ Rv.lowerResult t so = some lops ∧ exec e rops s3 = some s4 ∧ exec e' lops s4 = some s5 := by
  unfold Rv.runReturn at h
  cases h1 : Rv.lowerResult t so with
  | none => simp [h1] at h
  | some lops =>
    cases h2 : Rv.lowerReturn t with
    | none => simp [h1, h2] at h
    | some rops =>
      cases h3 : exec e rops s3 with
      | none => simp [h1, h2, h3] at h
      | some s4 => simp [h1, h2, h3] at h; exact ⟨_, _, _, rfl, rfl, h3, h⟩

/-- C80 fails on riscv64 for a struct of a floating point number and then an integer: the integer is not returned. -/
theorem C80_riscv64_mixed_counterexample :
    ∃ s3 s5, Returning (.agg (.cons (.scal .f64) (.cons (.scal .i64) .nil))) [] 1000 1984 s3 ∧
      Rv.runReturn (.agg (.cons (.scal .f64) (.cons (.scal .i64) .nil))) 0 ⟨0, 0⟩ ⟨1500, 2000⟩ s3 = some s5 ∧
      ¬ Returned fieldByte (.agg (.cons (.scal .f64) (.cons (.scal .i64) .nil))) 1000 1984 s3 s5 := by
  have h : (Rv.runReturn (.agg (.cons (.scal .f64) (.cons (.scal .i64) .nil))) 0 ⟨0, 0⟩ ⟨1500, 2000⟩ (retState 1000 1984)).map (fun s => s (.mem 1992)) =
      some (retState 1000 1984 (.gp 0 0)) := by decide +kernel
  obtain ⟨s5, h1, h2⟩ := Option.map_eq_some_iff.1 h
  have hR : Returning (.agg (.cons (.scal .f64) (.cons (.scal .i64) .nil))) [] 1000 1984 (retState 1000 1984) :=
    ⟨fun _ => ⟨fun k _ => rfl, by simp, by decide +kernel⟩⟩
  refine ⟨retState 1000 1984, s5, hR, h1, fun hr => ?_⟩
  have := (hr.object rfl).2 8 (.inr (.inl ⟨by decide +kernel, show 8 - alignUp _ _ < 8 by decide +kernel⟩))
  rw [show ((1984 : Int) + (8 : Nat)) = 1992 from rfl, h2] at this
  exact absurd this (by decide +kernel)

/-- C80 fails on riscv64 for an array of up to 16 bytes (here two integers of 32 bits): the caller expects it in the storage whose
address it passed, the called function returns its address in a0. -/
theorem C80_riscv64_array_counterexample :
    ∃ s3 s5, Returning (.arr 2 (.scal .i32)) [.big, .res] 1000 1008 s3 ∧ Rv.runReturn (.arr 2 (.scal .i32)) 0 ⟨0, 0⟩ ⟨1500, 2000⟩ s3 = some s5 ∧
      ¬ Returned fieldByte (.arr 2 (.scal .i32)) 1000 1008 s3 s5 := by
  have h : (Rv.runReturn (.arr 2 (.scal .i32)) 0 ⟨0, 0⟩ ⟨1500, 2000⟩ (retState 1000 1008)).map (fun s => s (.mem 1008)) = some (.dat 240) := by decide +kernel
  obtain ⟨s5, h1, h2⟩ := Option.map_eq_some_iff.1 h
  refine ⟨retState 1000 1008, s5, retState_returning (.arr 2 (.scal .i32)) [.big, .res] (by simp), h1, fun hr => ?_⟩
  have := (hr.object rfl).2 0 ⟨0, by decide, by decide +kernel, show 0 - 0 * _ < 4 by decide +kernel⟩
  rw [show ((1008 : Int) + (0 : Nat)) = 1008 from rfl, h2] at this
  exact absurd this (by decide +kernel)

/-- C80 fails on riscv64 for objects of more than 255 bytes, whose size is kept in eight bits: of an array of 40 integers (320
bytes) 64 bytes are copied. -/
theorem C80_riscv64_size_counterexample :
    ∃ s3 s5, Returning (.arr 40 (.scal .i64)) [.big, .res] 1000 1320 s3 ∧ Rv.runReturn (.arr 40 (.scal .i64)) 0 ⟨0, 0⟩ ⟨1500, 2000⟩ s3 = some s5 ∧
      ¬ Returned fieldByte (.arr 40 (.scal .i64)) 1000 1320 s3 s5 := by
  have h : (Rv.runReturn (.arr 40 (.scal .i64)) 0 ⟨0, 0⟩ ⟨1500, 2000⟩ (retState 1000 1320)).map (fun s => s (.mem 1384)) = some (.dat 104) := by decide +kernel
  obtain ⟨s5, h1, h2⟩ := Option.map_eq_some_iff.1 h
  refine ⟨retState 1000 1320, s5, retState_returning (.arr 40 (.scal .i64)) [.big, .res] (by simp), h1, fun hr => ?_⟩
  have := (hr.object rfl).2 64 ?_
  · rw [show ((1320 : Int) + (64 : Nat)) = 1384 from rfl, h2] at this
    exact absurd this (by decide +kernel)
  · exact ⟨8, by decide, by decide +kernel, show 64 - 8 * sizeOf (.scal .i64) < 8 by decide +kernel⟩

end Nature.Abi
