import Verif.Abi.SysvRet
import Verif.Abi.SysvConf
import Verif.Abi.WinArgs
import Verif.Abi.WinConf
/-
C79, C80, C81: calls.

For the two conventions on amd64 what a call passes is what the called function gets, whatever the types, their number, and the
way each travels, and what it returns is what the caller gets.  The specification is in `Spec.lean` (`Sent`, `Received`,
`Returning`, `Returned`), the machine in `Mach.lean`.
-/
namespace Nature.Abi
open Nature.TypeLayout

/-- Some state in which the arguments are as a caller has them. -/
def callState (adr : Nat → Int) : State := fun c =>
  match c with
  | .var (.actual i) k => .ptr (adr i) k
  | _ => .dat 7

theorem callState_sent (ts : List Ty) (lo hi : Int) : Sent ts (fun _ => hi) (Range lo hi) (callState fun _ => hi) :=
  ⟨fun i t _ _ => ⟨fun k _ => rfl, fun k _ => by unfold Range; omega⟩⟩

/-- Some state in which a function returns an object. -/
def retState (r b : Int) : State := fun c =>
  match c with
  | .var .ret k => .ptr r k
  | .var .big k => .ptr b k
  | .var .res k => .ptr b k
  | .mem a => .dat (UInt8.ofNat a.toNat)
  | _ => .dat 7

theorem retState_returning (t : Ty) (vs : List V) (hv : ∀ v ∈ vs, v = .big ∨ v = .res) : Returning t vs 1000 (1000 + sizeOf t) (retState 1000 (1000 + sizeOf t)) :=
  ⟨fun _ => ⟨fun k _ => rfl, fun v hv' k _ => by rcases hv v hv' with rfl | rfl <;> rfl, .inl (Int.le_refl _)⟩⟩

/-! ### C79: arguments -/

/-- C79, amd64 with the System V convention.  For every function type, with result type `rt` (`none` is `void`) and parameter
types `ts`: the lowering of the call and of the start of the called function both succeed, and executing the one and then the
other (the call in between pushes the return address and the old frame pointer) gives the called function its arguments: every
scalar parameter has the argument's bytes, every parameter that is an object (a struct, a string, a vector, an array, …) is an
object of the called function's own with the argument's bytes, no two of them overlap, and nothing outside the part of the stack
used for the call has changed.  When the result goes through memory the first parameter is the address of the storage for it. -/
theorem C79_sysv_partial (rt : Option Ty) (ts : List Ty) (so : Nat) (hso : so % 8 = 0) (ec ee : Env) (hfp : ee.fp = ec.sp - 16)
    (adr : Nat → Int) (s0 : State) :
    ∃ cops pops so', Sysv.lowerArgs (Sysv.callTypes rt ts) = some cops ∧ Sysv.lowerParams (Sysv.beginTypes rt ts) so = some (pops, so') ∧
      (Sent (Sysv.callTypes rt ts) adr (Range (ee.fp - so') (ec.sp + Sysv.argBytes (Sysv.callTypes rt ts))) s0 →
        ∃ s1 s2, exec ec cops s0 = some s1 ∧ exec ee pops s1 = some s2 ∧
          Received allBytes (Sysv.beginTypes rt ts) adr (Range (ee.fp - so') (ec.sp + Sysv.argBytes (Sysv.callTypes rt ts))) s0 s2) :=
  Sysv.args_ok hfp hso

/-- C79, amd64 with the Microsoft convention. -/
theorem C79_windows_partial (rt : Option Ty) (ts : List Ty) (so : Nat) (ec ee : Env) (hfp : ee.fp = ec.sp - 16)
    (adr : Nat → Int) (s0 : State) :
    ∃ cops pops so', Win.lowerArgs (Win.beginTypes rt ts) = some cops ∧ Win.lowerParams (Win.beginTypes rt ts) so = some (pops, so') ∧
      (Sent (Win.beginTypes rt ts) adr (Range (ee.fp - so') (ec.sp + Win.argBytes (Win.beginTypes rt ts))) s0 →
        ∃ s1 s2, exec ec cops s0 = some s1 ∧ exec ee pops s1 = some s2 ∧
          Received allBytes (Win.beginTypes rt ts) adr (Range (ee.fp - so') (ec.sp + Win.argBytes (Win.beginTypes rt ts))) s0 s2) :=
  Win.args_ok hfp

/-- Two words and an integer, three words, a string-like pair, and many scalars: everything occurs. -/
def exTypes : List Ty :=
  [.agg (.cons (.scal .f64) (.cons (.scal .i32) .nil)), .scal .f32, .agg (.cons (.scal .i64) (.cons (.scal .i64) (.cons (.scal .i8) .nil))),
   .arr 3 (.scal .i16), .scal .i64, .scal .i64, .scal .i8, .agg (.cons (.scal .i64) (.cons (.scal .i64) .nil)), .scal .i64,
   .agg (.cons (.scal .i16) (.cons (.scal .i8) .nil)), .scal .i16, .scal .i64]

/-- The hypotheses can be met, and objects in registers, objects and scalars on the stack and a result through memory occur. -/
example : ∃ s0, Sent (Sysv.callTypes (some (.arr 3 (.scal .i64))) exTypes) (fun _ => 5000) (Range 4000 5000) s0 ∧
    (Sysv.callerMark (Sysv.callTypes (some (.arr 3 (.scal .i64))) exTypes) 0 0 0).1 =
      [false, false, false, true, true, false, false, false, true, false, true, true, true] ∧
    Sysv.argBytes (Sysv.callTypes (some (.arr 3 (.scal .i64))) exTypes) = 72 :=
  ⟨_, callState_sent _ _ _, by decide +kernel, by decide +kernel⟩

example : ∃ s0, Sent (Win.beginTypes (some (.arr 3 (.scal .i64))) exTypes) (fun _ => 5000) (Range 4000 5000) s0 ∧
    Win.argBytes (Win.beginTypes (some (.arr 3 (.scal .i64))) exTypes) = 192 :=
  ⟨_, callState_sent _ _ _, by decide +kernel⟩

/-! ### C80: results -/

/-- C80, amd64 with the System V convention.  For every result type: the lowering of `return` and of what follows the call both
succeed, and executing the one and then the other gives the caller the result: a scalar has the bytes returned, an object is in
the caller's storage with the bytes returned, and nothing else in memory has changed. -/
theorem C80_sysv_partial (t : Ty) (r b : Int) (e e' : Env) (s3 : State) (h : Returning t (if (Sysv.cls t).isNone then [.big] else [.res]) r b s3) :
    ∃ rops sops, Sysv.lowerReturn t = some rops ∧ Sysv.lowerResult t = some sops ∧
      ∃ s4 s5, exec e rops s3 = some s4 ∧ exec e' sops s4 = some s5 ∧ Returned allBytes t r b s3 s5 :=
  Sysv.ret_ok h

/-- C80, amd64 with the Microsoft convention. -/
theorem C80_windows_partial (t : Ty) (r b : Int) (e e' : Env) (s3 : State) (h : Returning t (if (Win.cls t).isNone then [.big] else [.res]) r b s3) :
    ∃ rops sops, Win.lowerReturn t = some rops ∧ Win.lowerResult t = some sops ∧
      ∃ s4 s5, exec e rops s3 = some s4 ∧ exec e' sops s4 = some s5 ∧ Returned allBytes t r b s3 s5 :=
  Win.ret_ok h

example : ∃ s3, Returning (.agg (.cons (.scal .f64) (.cons (.scal .i32) .nil))) [.res] 1000 1016 s3 :=
  ⟨_, retState_returning (.agg (.cons (.scal .f64) (.cons (.scal .i32) .nil))) [.res] (by simp)⟩
example : ∃ s3, Returning (.arr 5 (.scal .i64)) [.big] 1000 1040 s3 := ⟨_, retState_returning (.arr 5 (.scal .i64)) [.big] (by simp)⟩

/-! ### C81: agreement with the platform's C calling convention -/

/-- C81: on every type without arrays inside, the classes are those of the psABI: memory for more than 16 bytes, and otherwise,
for each eight bytes, INTEGER if an integer is among the scalars in it and SSE if there are only floating point numbers. -/
theorem C81_classes_partial (t : Ty) (h : hasArr t = false) : Sysv.cls t = Sysv.abiCls t := Sysv.cls_abi h

example : hasArr (.agg (.cons (.scal .f32) (.cons (.scal .f32) (.cons (.agg (.cons (.scal .i8) .nil)) .nil)))) = false ∧
    Sysv.abiCls (.agg (.cons (.scal .f32) (.cons (.scal .f32) (.cons (.agg (.cons (.scal .i8) .nil)) .nil)))) = some (.sse, .integer) := by
  decide +kernel

/-- C81 for the Microsoft convention, in the called function: a parameter of whatever position and type is taken from where the
convention puts it: scalars and structs of 1, 2, 4 or 8 bytes themselves, the others by their address, in the register of the
position or above the home space. -/
theorem C81_windows_params_partial (ts : List Ty) (so : Nat) (ops : List Op) (so' : Nat) (h : Win.lowerParams ts so = some (ops, so'))
    (i : Nat) (t : Ty) (hi : ts[i]? = some t) (ha : Win.isArr t = false) :
    .mov (Win.formalOf i t).1 (Win.msIn i t) (Win.formalOf i t).2 ∈ ops := by
  have := Win.params_conf ts 0 (16 + 32) so ops so' (by simp) h i t hi ha
  rwa [Nat.zero_add] at this

/-- C81 for the Microsoft convention, at the call: every argument is moved to where the convention wants it, possibly through a
register of its own. -/
theorem C81_windows_args_partial (ts : List Ty) (ops : List Op) (h : Win.lowerArgs ts = some ops) (i : Nat) (t : Ty) (hi : ts[i]? = some t)
    (ha : Win.isArr t = false) :
    .mov (Win.msOut i t) (Win.sentOf i t).1 (Win.sentOf i t).2 ∈ ops ∨
    (.mov (.var (.work i 0)) (Win.sentOf i t).1 (Win.sentOf i t).2 ∈ ops ∧
      .mov (Win.msOut i t) (.var (.work i 0)) (Win.sentOf i t).2 ∈ ops) := by
  simp only [Win.lowerArgs, Option.map_eq_some_iff] at h
  obtain ⟨r, hr, rfl⟩ := h
  by_cases hlt : i < 4
  · have := Win.regArgs_conf ts 0 r hr i t hi ha (by omega)
    rw [Nat.zero_add] at this
    exact .inl (List.mem_append_right _ this)
  · have := Win.stackArgs_conf ts 0 i t hi ha (by omega)
    rw [Nat.zero_add] at this
    exact this.imp (fun h => List.mem_append_left _ (List.mem_append_right _ h))
      (fun h => ⟨List.mem_append_left _ (List.mem_append_right _ h.1), List.mem_append_left _ (List.mem_append_right _ h.2)⟩)

/-- C81 for the Microsoft convention, results: a floating point number comes back in xmm0, another scalar and a struct of 1, 2, 4
or 8 bytes in rax, and any other struct in memory whose address the caller passes as an extra first argument and finds in rax. -/
theorem C81_windows_result_partial (t : Ty) (ha : Win.isArr t = false) (ts : List Ty) :
    Win.beginTypes (some t) ts = (if Win.msByAddress t then [.scal .i64] else []) ++ ts ∧
    Win.lowerResult t = some [if Win.msByAddress t then .mov (.var .res) (.gp 0) 8
      else match t with
        | .scal s => .mov (.var .res) (if s.isF then .fp 0 else .gp 0) s.size
        | _ => .mov (.ind .res 0) (.gp 0) (sizeOf t)] := by
  cases hb : Win.msByAddress t with
  | true =>
    have hc := (Win.cls_ms ha).mpr hb
    simp [Win.beginTypes, Win.lowerResult, hc]
  | false =>
    cases hc : Win.cls t with
    | none => rw [(Win.cls_ms ha).mp hc] at hb; cases hb
    | some c =>
      refine ⟨by simp [Win.beginTypes, hc], ?_⟩
      cases t with
      | scal s =>
        simp only [Win.cls, Option.some.injEq] at hc
        subst hc
        cases hs : s.isF <;> simp [Win.lowerResult, Win.cls, hs]
      | arr n t => cases ha
      | agg es =>
        have : c = .integer := by
          simp only [Win.cls] at hc
          split at hc <;> simp_all
        subst this
        simp [Win.lowerResult, hc]

example : ∃ ops so', Win.lowerParams [.scal .i64, .scal .f32, .agg (.cons (.scal .f64) .nil), .agg (.cons (.scal .f64) (.cons (.scal .i8) .nil)),
    .agg (.cons (.scal .i16) (.cons (.scal .i8) .nil)), .scal .f64, .agg (.cons (.arr 3 (.scal .i8)) .nil)] 0 = some (ops, so') ∧
    Win.msIn 5 (.scal .f64) = .slot 56 ∧ Win.msByAddress (.agg (.cons (.arr 3 (.scal .i8)) .nil)) = true :=
  ⟨_, _, rfl, by decide +kernel, by decide +kernel⟩

/-- C81 fails for a struct with an array in it: `{ float x[2]; }` is one SSE register in C, and memory here. -/
theorem C81_array_counterexample :
    Sysv.abiCls (.agg (.cons (.arr 2 (.scal .f32)) .nil)) = some (.sse, .no) ∧ Sysv.cls (.agg (.cons (.arr 2 (.scal .f32)) .nil)) = none := by
  decide +kernel

/-- C81 fails for the result `{ double x; long y; }`: in C `y` comes back in rax, here it is looked for in rdx. -/
theorem C81_result_counterexample :
    Sysv.abiCls (.agg (.cons (.scal .f64) (.cons (.scal .i64) .nil))) = some (.sse, .integer) ∧
    Sysv.abiRet .sse .integer = [.fp 0, .gp 0] ∧
    Sysv.lowerResult (.agg (.cons (.scal .f64) (.cons (.scal .i64) .nil))) =
      some [.mov (.ind .res 0) (.fp 0) 8, .mov (.ind .res 8) (.gp 2) 8] := by
  refine ⟨by decide +kernel, by decide +kernel, by decide +kernel⟩

/-- C81 fails for the result `{ long x; double y; }`: in C `y` comes back in xmm0, here it is looked for in xmm1. -/
theorem C81_result2_counterexample :
    Sysv.abiCls (.agg (.cons (.scal .i64) (.cons (.scal .f64) .nil))) = some (.integer, .sse) ∧
    Sysv.abiRet .integer .sse = [.gp 0, .fp 0] ∧
    Sysv.lowerResult (.agg (.cons (.scal .i64) (.cons (.scal .f64) .nil))) =
      some [.mov (.ind .res 0) (.gp 0) 8, .mov (.ind .res 8) (.fp 1) 8] := by
  refine ⟨by decide +kernel, by decide +kernel, by decide +kernel⟩

end Nature.Abi
