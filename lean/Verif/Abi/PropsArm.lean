import Verif.Abi.ArmCall
import Verif.Abi.Props
/-
C79, C80 on arm64.
-/
namespace Nature.Abi
open Nature.TypeLayout

/-- C79, arm64.  For every argument list that fits (`Arm.fits`: no floating point number once the eight vector registers are
taken, no empty struct, a struct goes to the stack only if it has 9 to 16 bytes, no array of one or two bytes once the eight
general registers are taken): the call and the start of the called function are lowered, and executing the one and then the other
gives the called function its arguments, in the sense of `Received`.  What the call uses of the memory (`Arm.Used`) is its part of
the stack below the caller's frame and the copies in the caller's frame.  When the result goes through memory the called
function has the address of the storage the caller made for it.  `argBytes` bytes at the stack pointer are reserved for arguments
and do not reach into the caller's frame. -/
theorem C79_arm64_partial (rt : Option Ty) (ts : List Ty) (hf : Arm.fits ts = true) (soC so : Nat) (hso : so % 8 = 0) (ec ee : Env)
    (hfp : ee.fp = ec.sp - 16) (adr : Nat → Int) (s0 : State) :
    ∃ cops soC' pops so', Arm.lowerCall rt ts soC = some (cops, soC') ∧ Arm.lowerBegin rt ts so = some (pops, so') ∧
      (ec.sp + Arm.argBytes ts ≤ ec.fp - soC' → Sent ts adr (Arm.Used ec.sp ec.fp (Arm.argBytes ts) soC soC' so') s0 →
        ∃ s1 s2, exec ec cops s0 = some s1 ∧ exec ee pops s1 = some s2 ∧
          Received allBytes ts adr (Arm.Used ec.sp ec.fp (Arm.argBytes ts) soC soC' so') s0 s2 ∧
          (Arm.viaMem rt = true → PtrAt s2 (.var (.formal ts.length)) (ec.fp - soC'))) :=
  Arm.args_ok hfp hf hso

/-- The hypotheses can be met: structs in one and two general registers, a struct of floats, arrays by address in a register and
on the stack, a struct of 16 bytes on the stack, scalars everywhere, and a result through memory. -/
def armTypes : List Ty :=
  [.agg (.cons (.scal .f32) (.cons (.scal .f32) (.cons (.scal .f32) .nil))), .agg (.cons (.scal .i64) (.cons (.scal .i8) .nil)),
   .arr 3 (.scal .i64), .scal .i8, .scal .f64, .agg (.cons (.scal .i16) .nil), .scal .i64, .scal .i64,
   .agg (.cons (.scal .i64) (.cons (.scal .i64) .nil)), .arr 2 (.scal .i32), .scal .i16]

example : Arm.fits armTypes = true ∧ (Arm.pcs armTypes 0 0 32).1 = [16, 0, 5, 6, 22, 8, 10, 12, 32, 49, 56] ∧ Arm.argBytes armTypes = 32 ∧
    Arm.viaMem (some (.arr 9 (.scal .i64))) = true ∧
    (∃ c p, Arm.lowerCall (some (.arr 9 (.scal .i64))) armTypes 64 = some (c, 168) ∧ Arm.lowerBegin (some (.arr 9 (.scal .i64))) armTypes 32 = some (p, 72)) ∧
    ∃ s0, Sent armTypes (fun _ => 5000) (Arm.Used 1000 2000 32 64 168 72) s0 := by
  refine ⟨by decide +kernel, by decide +kernel, by decide +kernel, by decide +kernel, ⟨_, _, rfl, rfl⟩, callState fun _ => 5000, ⟨fun i t _ _ =>
    ⟨fun k _ => rfl, fun k _ => ?_⟩⟩⟩
  unfold Arm.Used Range; omega

/-- A call executed: what the caller does, then what the called function does. -/
def Arm.runCall (rt : Option Ty) (ts : List Ty) (soC so : Nat) (ec ee : Env) (s0 : State) : Option State := do
  let c ← Arm.lowerCall rt ts soC
  let p ← Arm.lowerBegin rt ts so
  exec ee p.1 (← exec ec c.1 s0)

/-- Byte values that tell the arguments apart. -/
def markState : State := fun c =>
  match c with
  | .var (.actual i) _ => .dat (UInt8.ofNat i)
  | _ => .dat 77

/-- C79 fails on arm64 with more than eight floating point arguments: the ninth and the tenth are put two bytes apart, and the
ninth parameter has bytes of the tenth argument.  (No part of the stack is reserved for them either.) -/
theorem C79_arm64_floats_counterexample :
    Arm.argBytes (List.replicate 10 (.scal .f64)) = 0 ∧
    ∃ s2, Arm.runCall none (List.replicate 10 (.scal .f64)) 0 0 ⟨1000, 2000⟩ ⟨500, 984⟩ markState = some s2 ∧
      ∀ adr used, Sent (List.replicate 10 (.scal .f64)) adr used markState ∧ ¬ Received allBytes (List.replicate 10 (.scal .f64)) adr used markState s2 := by
  refine ⟨by decide +kernel, ?_⟩
  have h : (Arm.runCall none (List.replicate 10 (.scal .f64)) 0 0 ⟨1000, 2000⟩ ⟨500, 984⟩ markState).map (fun s => s (.var (.formal 8) 2)) = some (.dat 9) := by
    decide +kernel
  obtain ⟨s2, h1, h2⟩ := Option.map_eq_some_iff.1 h
  refine ⟨s2, h1, fun adr used => ⟨⟨fun i t hi ht => ?_⟩, fun hr => ?_⟩⟩
  · have := List.mem_of_getElem? hi
    rw [List.mem_replicate] at this
    rw [this.2] at ht; cases ht
  · have := hr.scalar 8 .f64 rfl 2 (by decide)
    rw [h2] at this
    exact absurd this (by decide)

/-- Eight integers and then a struct. -/
def eightAnd (t : Ty) : List Ty := List.replicate 8 (.scal .i64) ++ [t]

/-- C79 fails on arm64 for a struct of up to eight bytes (here `{ i32, i32 }`) that goes to the stack: what is passed is the
address of the caller's object.  The parameter is the caller's object, not a copy. -/
theorem C79_arm64_struct_counterexample :
    ∃ s2, Arm.runCall none (eightAnd (.agg (.cons (.scal .i32) (.cons (.scal .i32) .nil)))) 0 0 ⟨1000, 2000⟩ ⟨500, 984⟩ (callState fun _ => 5000) = some s2 ∧
      ∀ used : Int → Prop, (∀ a, used a → a < 5000) →
        Sent (eightAnd (.agg (.cons (.scal .i32) (.cons (.scal .i32) .nil)))) (fun _ => 5000) used (callState fun _ => 5000) ∧
        PtrAt s2 (.var (.formal 8)) 5000 ∧
        ¬ Received allBytes (eightAnd (.agg (.cons (.scal .i32) (.cons (.scal .i32) .nil)))) (fun _ => 5000) used (callState fun _ => 5000) s2 := by
  have h : (Arm.runCall none (eightAnd (.agg (.cons (.scal .i32) (.cons (.scal .i32) .nil)))) 0 0 ⟨1000, 2000⟩ ⟨500, 984⟩ (callState fun _ => 5000)).map
      (fun s => getPtr s (.var (.formal 8))) = some (some 5000) := by
    decide +kernel
  obtain ⟨s2, h1, h2⟩ := Option.map_eq_some_iff.1 h
  have h2 := getPtr_some.1 h2
  refine ⟨s2, h1, fun used hu => ⟨⟨fun i t _ _ => ⟨fun k _ => rfl, fun k _ hk => ?_⟩⟩, h2, fun hr => ?_⟩⟩
  · have := hu _ hk; omega
  · obtain ⟨home, h3, _⟩ := hr.object
    obtain ⟨g1, g2⟩ := h3 8 _ rfl rfl
    have e : home 8 = 5000 := by
      have a := g1 0 (by decide)
      have b := h2 0 (by decide)
      rw [a] at b
      injection b
    have := hu _ (g2 0 (by unfold allBytes; decide +kernel)).2
    rw [e] at this; omega

/-- C79 fails on arm64 for what goes to the stack in other sizes: the compiler stops at an assertion.  A struct of one byte, an
array of one byte, and after eight doubles a struct of three doubles. -/
theorem C79_arm64_abort_counterexample :
    Arm.lowerCall none (eightAnd (.agg (.cons (.scal .i8) .nil))) 0 = none ∧
    Arm.lowerCall none (eightAnd (.arr 1 (.scal .i8))) 0 = none ∧
    Arm.lowerCall none (List.replicate 8 (.scal .f64) ++ [.agg (.cons (.scal .f64) (.cons (.scal .f64) (.cons (.scal .f64) .nil)))]) 0 = none := by
  refine ⟨by decide +kernel, by decide +kernel, by decide +kernel⟩

/-! ### Results -/

/-- C80, arm64.  For every result type but an array of up to 16 bytes: executing what `return` is lowered to and then what follows
the call gives the caller the result, in the sense of `Returned`.  An object that goes through memory has its storage (at `b`)
before the call; otherwise the caller makes the storage afterwards. -/
theorem C80_arm64_partial (t : Ty) (hs : Arm.smallArr t = false) (so : Nat) (r b : Int) (e e' : Env) (s3 : State)
    (h : Returning t (if Arm.memRes t then [.big, .res] else []) r b s3)
    (hb : Arm.memRes t = false → t.ind = true → b = e'.fp - allocOff so t) :
    ∃ s4 s5, exec e (Arm.lowerReturn t) s3 = some s4 ∧ exec e' (Arm.lowerResult t so) s4 = some s5 ∧ Returned allBytes t r b s3 s5 :=
  Arm.ret_ok hs h hb

example : Arm.memRes (.arr 5 (.scal .i64)) = true ∧ Arm.smallArr (.arr 5 (.scal .i64)) = false ∧
    ∃ s3, Returning (.arr 5 (.scal .i64)) [.big, .res] 1000 1040 s3 :=
  ⟨by decide +kernel, by decide +kernel, _, retState_returning (.arr 5 (.scal .i64)) [.big, .res] (by simp)⟩
example : Arm.memRes (.agg (.cons (.scal .f64) (.cons (.scal .i32) .nil))) = false ∧ allocOff 32 (.agg (.cons (.scal .f64) (.cons (.scal .i32) .nil))) = 48 ∧
    ∃ s3, Returning (.agg (.cons (.scal .f64) (.cons (.scal .i32) .nil))) [] 1000 1016 s3 :=
  ⟨by decide +kernel, by decide +kernel, _, retState_returning (.agg (.cons (.scal .f64) (.cons (.scal .i32) .nil))) [] (by simp)⟩

/-- C80 fails on arm64 for an array of up to 16 bytes (here two integers of 32 bits): the caller expects it in the storage whose
address it passed, the called function returns its address in x0. -/
theorem C80_arm64_array_counterexample :
    ∃ s3 s4 s5, Returning (.arr 2 (.scal .i32)) [.big, .res] 1000 1008 s3 ∧ exec ⟨0, 0⟩ (Arm.lowerReturn (.arr 2 (.scal .i32))) s3 = some s4 ∧
      exec ⟨0, 0⟩ (Arm.lowerResult (.arr 2 (.scal .i32)) 0) s4 = some s5 ∧ ¬ Returned allBytes (.arr 2 (.scal .i32)) 1000 1008 s3 s5 := by
  have h : (exec ⟨0, 0⟩ (Arm.lowerReturn (.arr 2 (.scal .i32))) (retState 1000 1008)).map (fun s => s (.mem 1008)) = some (.dat 240) := by decide +kernel
  obtain ⟨s4, h1, h2⟩ := Option.map_eq_some_iff.1 h
  refine ⟨retState 1000 1008, s4, s4, retState_returning (.arr 2 (.scal .i32)) [.big, .res] (by simp), h1, rfl, fun hr => ?_⟩
  have := (hr.object rfl).2 0 (by unfold allBytes; decide +kernel)
  rw [show ((1008 : Int) + (0 : Nat)) = 1008 from rfl, h2] at this
  exact absurd this (by decide +kernel)

end Nature.Abi
