import Verif.Amd64.Model
import Verif.Amd64.Spec
/-! Lemmas for the encoder: what `opcode_fill` computes, and how the decoder reads it back. -/
namespace Nature.Amd64
open Spec

/-! ## Numbers -/

theorem sle4 (d : Int) (h1 : -2147483648 ≤ d) (h2 : d < 2147483648) (t : List Nat) :
    sle 4 (int32Bytes d ++ t) = some (d, t) := by
  simp only [sle, le, int32Bytes, List.cons_append, List.nil_append, Option.map_some]
  congr 2
  split <;> omega

theorem sle1 (d : Int) (h1 : -128 ≤ d) (h2 : d ≤ 127) (t : List Nat) :
    sle 1 ((d % 256).toNat :: t) = some (d, t) := by
  simp only [sle, le, Option.map_some]
  congr 2
  split <;> omega

theorem le_leBytes : ∀ (n v : Nat) (t : List Nat), v < 256 ^ n → le n (leBytes n v ++ t) = some (v, t)
  | 0, v, t, h => by simp at h; simp [le, leBytes, h]
  | n + 1, v, t, h => by
    have h' : v / 256 < 256 ^ n := by
      rw [Nat.div_lt_iff_lt_mul (by decide)]; rw [Nat.pow_succ] at h; exact h
    simp only [leBytes, List.cons_append, le, le_leBytes n (v / 256) t h', Option.map_some]
    congr 2; omega

/-! ## REX and prefixes -/

theorem rexByte_w (r : Rex) : decide (rexByte r / 8 % 2 = 1) = r.w := by
  rcases r with ⟨w, r, x, b⟩; revert w r x b; decide
theorem rexByte_r (r : Rex) : rexByte r / 4 % 2 * 8 = if r.r then 8 else 0 := by
  rcases r with ⟨w, r, x, b⟩; revert w r x b; decide
theorem rexByte_x (r : Rex) : rexByte r / 2 % 2 * 8 = if r.x then 8 else 0 := by
  rcases r with ⟨w, r, x, b⟩; revert w r x b; decide
theorem rexByte_b (r : Rex) : rexByte r % 2 * 8 = if r.b then 8 else 0 := by
  rcases r with ⟨w, r, x, b⟩; revert w r x b; decide
theorem rexByte_isRex (r : Rex) : isRex (rexByte r) = true ∧ isLegacy (rexByte r) = false := by
  rcases r with ⟨w, r, x, b⟩; revert w r x b; decide

/-- The prefixes the decoder sees. -/
def pOf (pfx : Nat) (rex : Option Rex) : Pfx :=
  { (if pfx = 0 then ({} : Pfx) else ({} : Pfx).legacy pfx) with rex := rex.map rexByte }

theorem pOf_rex (pfx : Nat) (rex : Option Rex) : (pOf pfx rex).rex = rex.map rexByte := rfl
theorem pOf_w (pfx : Nat) (rex : Option Rex) : (pOf pfx rex).w = (rex.getD {}).w := by
  cases rex with
  | none => simp [Pfx.w, pOf_rex]
  | some r => simp only [Pfx.w, pOf_rex, Option.map_some, Option.getD_some]; rw [← rexByte_w r]; congr
theorem pOf_r (pfx : Nat) (rex : Option Rex) : (pOf pfx rex).r = if (rex.getD {}).r then 8 else 0 := by
  cases rex with
  | none => simp [Pfx.r, pOf_rex]
  | some r => simpa [Pfx.r, pOf_rex] using rexByte_r r
theorem pOf_x (pfx : Nat) (rex : Option Rex) : (pOf pfx rex).x = if (rex.getD {}).x then 8 else 0 := by
  cases rex with
  | none => simp [Pfx.x, pOf_rex]
  | some r => simpa [Pfx.x, pOf_rex] using rexByte_x r
theorem pOf_b (pfx : Nat) (rex : Option Rex) : (pOf pfx rex).b = if (rex.getD {}).b then 8 else 0 := by
  cases rex with
  | none => simp [Pfx.b, pOf_rex]
  | some r => simpa [Pfx.b, pOf_rex] using rexByte_b r

theorem legacy_rex (b : Nat) : (({} : Pfx).legacy b).rex = none := by
  unfold Pfx.legacy
  repeat' split
  all_goals rfl

theorem prefixes_enc (pfx : Nat) (rex : Option Rex) (b : Nat) (t : List Nat)
    (hp : pfx = 0 ∨ isLegacy pfx = true) (hb : isLegacy b = false) (hr : isRex b = false) :
    prefixes {} ((if pfx = 0 then [] else [pfx]) ++ (rex.map rexByte).toList ++ b :: t)
      = (pOf pfx rex, b :: t) := by
  have key : ∀ p : Pfx, p.rex = none → prefixes p ((rex.map rexByte).toList ++ b :: t)
      = ({ p with rex := rex.map rexByte }, b :: t) := by
    intro p hp
    cases rex with
    | none =>
      obtain ⟨a1, a2, a3, a4⟩ := p
      simp only at hp; subst hp
      simp [prefixes, hb, hr]
    | some r =>
      have := rexByte_isRex r
      simp [prefixes, this.1, this.2, hb, hr]
  by_cases h0 : pfx = 0
  · subst h0; simpa [pOf] using key {} rfl
  · have hl : isLegacy pfx = true := hp.resolve_left h0
    simp only [if_neg h0, List.cons_append, List.nil_append, prefixes, hl, if_true]
    rw [key _ (legacy_rex pfx)]
    simp [pOf, h0]

/-! ## The side of an operand in ModRM.rm -/

/-- The parts an `rm` operand contributes. -/
structure RmPart where
  mod : Nat
  rm : Nat
  sib : Option Sib := none
  disps : List Nat := []
  x : Bool := false
  b : Bool := false

/-- What `fillOp` contributes for an `rm` operand. -/
def rmPart : Operand → Option RmPart
  | .reg r => some { mod := 3, rm := r.idx % 8, b := decide (7 < r.idx) }
  | .disp r d _ =>
    let short := decide (-128 ≤ d) && decide (d ≤ 127)
    some { mod := if short then 1 else 2, rm := r.idx % 8,
           disps := (int32Bytes d).take (if short then 1 else 4), b := decide (7 < r.idx) }
  | .ind r _ =>
    let five := r.idx == 13 || r.idx == 5
    some { mod := if five then 1 else 0, rm := r.idx, disps := if five then [0] else [],
           b := decide (7 < r.idx) }
  | .rip d _ => some { mod := 0, rm := 5, disps := int32Bytes d }
  | .seg _ d => some { mod := 0, rm := 4, sib := some ⟨0, 4, 5⟩, disps := int32Bytes d }
  | .sib base index scale d _ => do
    let sc ← scaleEnc scale
    let ix := ixOf index
    match base with
    | none => some { mod := 0, rm := 4, sib := some ⟨sc, ix, 5⟩, disps := int32Bytes d, x := decide (7 < ix) }
    | some b =>
      some { mod := if b.idx = 13 ∨ b.idx = 5 then 1 else if d = 0 then 0
                    else if -128 ≤ d ∧ d ≤ 127 then 1 else 2,
             rm := 4, sib := some ⟨sc, ix, b.idx⟩,
             disps := if b.idx = 13 ∨ b.idx = 5 then [0] else if d = 0 then []
                    else if -128 ≤ d ∧ d ≤ 127 then [(d % 256).toNat] else int32Bytes d,
             x := decide (7 < ix), b := decide (7 < b.idx) }
  | _ => none

/-- The segment prefix. -/
def segPfx (p : Nat) : Operand → Nat
  | .seg .fs _ => 0x64
  | .seg .gs _ => 0x65
  | _ => p

/-- Operands that can sit on the `rm` side. -/
def isRm (o : Operand) : Bool :=
  match o.key.1 with
  | .reg | .freg | .ind | .disp | .sib | .rip | .seg => true
  | _ => false

theorem fillOp_rm (rexOn sR : Bool) (f f' : Fmt) (o : Operand) (ho : isRm o = true)
    (hs : f.sib = none) (hd : f.disps = [])
    (hr : ∀ r, f.rex = some r → r.x = false ∧ r.b = false)
    (h : fillOp rexOn sR f .rm o = some f') :
    ∃ q, rmPart o = some q ∧ f' = { f with
      pfx := segPfx f.pfx o
      modrm := some { mod := q.mod, reg := (f.modrm.getD {}).reg, rm := q.rm }
      sib := q.sib, disps := q.disps
      rex := if rexOn then f.rex.map fun r => { r with x := q.x, b := q.b } else f.rex } := by
  obtain ⟨pfx, rex, opc, m, s, d, imms⟩ := f
  simp only at hs hd; subst hs hd
  have hrex : ∀ r, rex = some r → ∃ w r', r = ⟨w, r', false, false⟩ := by
    intro r h; have := hr r h; obtain ⟨w, r', x, b⟩ := r; simp at this; exact ⟨w, r', by simp [this]⟩
  have hrx : ∀ b : Bool, (rex.map fun r => { r with b := b }) = rex.map fun r => { r with x := false, b := b } := by
    intro b; cases rex with
    | none => rfl
    | some r => obtain ⟨w, r', rfl⟩ := hrex r rfl; rfl
  have hrb : ∀ x : Bool, (rex.map fun r => { r with x := x }) = rex.map fun r => { r with x := x, b := false } := by
    intro b; cases rex with
    | none => rfl
    | some r => obtain ⟨w, r', rfl⟩ := hrex r rfl; rfl
  have hr0 : rex = rex.map fun r => { r with x := false, b := false } := by
    cases rex with
    | none => rfl
    | some r => obtain ⟨w, r', rfl⟩ := hrex r rfl; rfl
  cases o with
  | reg r =>
    simp only [fillOp, Option.some.injEq] at h; subst h
    refine ⟨_, rfl, ?_⟩
    cases rexOn <;> simp [Fmt.setRex, Fmt.setModrm, segPfx, hrx]
  | ind r s =>
    simp only [fillOp, Option.some.injEq] at h; subst h
    refine ⟨_, rfl, ?_⟩
    cases rexOn <;> simp [Fmt.setRex, Fmt.setModrm, segPfx, hrx]
  | disp r d s =>
    simp only [fillOp, Option.some.injEq] at h; subst h
    refine ⟨_, rfl, ?_⟩
    cases rexOn <;> simp [Fmt.setRex, Fmt.setModrm, segPfx, hrx]
  | rip d s =>
    simp only [fillOp, Option.some.injEq] at h; subst h
    refine ⟨_, rfl, ?_⟩
    cases rexOn <;> simp [Fmt.setModrm, segPfx, ← hr0]
  | seg s off =>
    simp only [fillOp, Option.some.injEq] at h; subst h
    refine ⟨_, rfl, ?_⟩
    cases s <;> cases rexOn <;> simp [Fmt.setModrm, segPfx, ← hr0]
  | sib base index scale d sz =>
    simp only [fillOp, bind, Option.bind] at h
    cases hsc : scaleEnc scale with
    | none => simp [hsc] at h
    | some sc =>
      simp only [hsc] at h
      cases base with
      | none =>
        simp only [Option.some.injEq] at h; subst h
        refine ⟨_, by simp only [rmPart, hsc, bind, Option.bind]; rfl, ?_⟩
        cases rexOn <;> simp [Fmt.setRex, Fmt.setModrm, segPfx, hrb]
      | some b =>
        simp only [Option.some.injEq] at h; subst h
        refine ⟨_, by simp only [rmPart, hsc, bind, Option.bind]; rfl, ?_⟩
        by_cases h1 : b.idx = 13 ∨ b.idx = 5 <;> by_cases h2 : d = 0 <;>
          by_cases h3 : -128 ≤ d ∧ d ≤ 127 <;> cases rexOn <;>
          simp [Fmt.setRex, Fmt.setModrm, segPfx, h1, h2, h3]
  | u8 v => simp [isRm, Operand.key] at ho
  | u16 v => simp [isRm, Operand.key] at ho
  | u32 v => simp [isRm, Operand.key] at ho
  | u64 v => simp [isRm, Operand.key] at ho
  | uint v => simp [isRm, Operand.key] at ho

/-! ## Reading it back -/

/-- The `rm` side a request names. -/
def rmOf : Operand → Rm
  | .reg r => .direct r.idx
  | .ind r _ => .mem (.reg r.idx) none 0
  | .disp r d _ => .mem (.reg r.idx) none d
  | .sib b i sc d _ => .mem (match b with
      | some b => .reg b.idx
      | none => .none) (i.map fun i => (i.idx, if sc = 0 then 1 else sc)) d
  | .rip d _ => .mem .rip none d
  | .seg _ d => .mem .none none d
  | _ => .direct 0

/-- The addresses the encoder gets wrong: rsp or r12 as the base of an indirect operand, and rbp or r13 as
the base of an indexed one with a displacement. -/
def goodAddr : Operand → Bool
  | .ind r _ | .disp r _ _ => decide (r.idx % 8 ≠ 4)
  | .sib (some b) _ _ d _ => decide (b.idx % 8 ≠ 5) || decide (d = 0)
  | _ => true

theorem scaleEnc_spec {s e : Nat} (h : scaleEnc s = some e) : e < 4 ∧ 2 ^ e = if s = 0 then 1 else s := by
  unfold scaleEnc at h
  split at h <;> simp at h <;> subst h <;> decide

theorem modrmByte_div (m : Modrm) (h : m.mod < 4) : modrmByte m / 64 = m.mod ∧
    modrmByte m / 8 % 8 = m.reg % 8 ∧ modrmByte m % 8 = m.rm % 8 := by
  unfold modrmByte; omega

theorem sibByte_div (s : Sib) (h : s.scale < 4) : sibByte s / 64 = s.scale ∧
    sibByte s / 8 % 8 = s.index % 8 ∧ sibByte s % 8 = s.base % 8 := by
  unfold sibByte; omega

theorem reg_num (n : Nat) (b : Bool) (pb : Nat) (hn : n < 16) (h : pb = if b then 8 else 0)
    (hb : b = decide (7 < n)) : pb + n % 8 = n := by
  subst hb
  by_cases h7 : 7 < n <;> simp [h7] at h <;> omega

theorem modrm_rm (o : Operand) (q : RmPart) (hq : rmPart o = some q) (ok : OperandOk o)
    (good : goodAddr o = true) (p : Pfx) (hb : p.b = if q.b then 8 else 0) (hx : p.x = if q.x then 8 else 0)
    (reg : Nat) (hreg : reg < 8) (t : List Nat) :
    Spec.modrm p (modrmByte { mod := q.mod, reg := reg, rm := q.rm } ::
      ((q.sib.map sibByte).toList ++ q.disps ++ t)) = some (p.r + reg, rmOf o, t) := by
  have hr8 : reg % 8 = reg := Nat.mod_eq_of_lt hreg
  cases o with
  | reg r =>
    simp only [rmPart, Option.some.injEq] at hq; subst hq
    simp only at hb hx
    have hm := modrmByte_div { mod := 3, reg := reg, rm := r.idx % 8 } (by simp)
    simp only at hm
    have := reg_num r.idx _ p.b ok.1 hb rfl
    simp [Spec.modrm, hm, hr8, rmOf, this]
  | ind r s =>
    simp only [rmPart, Option.some.injEq] at hq; subst hq
    simp only at hb hx
    have hg : r.idx % 8 ≠ 4 := by simpa [goodAddr] using good
    have hn := reg_num r.idx _ p.b ok.1 hb rfl
    by_cases h5 : r.idx = 13 ∨ r.idx = 5
    · have h5' : (r.idx == 13 || r.idx == 5) = true := by simpa using h5
      have hm := modrmByte_div { mod := 1, reg := reg, rm := r.idx } (by simp)
      simp only at hm
      have h0 : sle 1 (0 :: t) = some (0, t) := by simpa using sle1 0 (by decide) (by decide) t
      simp [Spec.modrm, hm, hr8, rmOf, h5', hg, hn, dispOf, h0]
    · have h5' : (r.idx == 13 || r.idx == 5) = false := by simpa using h5
      have h5'' : r.idx % 8 ≠ 5 := by have := ok.1; omega
      have hm := modrmByte_div { mod := 0, reg := reg, rm := r.idx } (by simp)
      simp only at hm
      simp [Spec.modrm, hm, hr8, rmOf, h5', h5'', hg, hn, dispOf]
  | disp r d s =>
    simp only [rmPart, Option.some.injEq] at hq; subst hq
    simp only at hb hx
    have hg : r.idx % 8 ≠ 4 := by simpa [goodAddr] using good
    have hn := reg_num r.idx _ p.b ok.1.1 hb rfl
    by_cases hs : -128 ≤ d ∧ d ≤ 127
    · have hs' : (decide (-128 ≤ d) && decide (d ≤ 127)) = true := by simpa using hs
      have hm := modrmByte_div { mod := 1, reg := reg, rm := r.idx % 8 } (by simp)
      simp only at hm
      have h0 := sle1 d hs.1 hs.2 t
      simp [Spec.modrm, hm, hr8, rmOf, hs', hg, hn, dispOf, int32Bytes, h0]
    · have hs' : (decide (-128 ≤ d) && decide (d ≤ 127)) = false := by
        cases h : (decide (-128 ≤ d) && decide (d ≤ 127))
        · rfl
        · exact absurd (by simpa using h) hs
      have hm := modrmByte_div { mod := 2, reg := reg, rm := r.idx % 8 } (by simp)
      simp only at hm
      have h0 := sle4 d ok.2.1 ok.2.2 t
      have htk : (int32Bytes d).take 4 = int32Bytes d := rfl
      simp [Spec.modrm, hm, hr8, rmOf, hs', hg, hn, dispOf, htk, h0]
  | rip d s =>
    simp only [rmPart, Option.some.injEq] at hq; subst hq
    have hm := modrmByte_div { mod := 0, reg := reg, rm := 5 } (by simp)
    simp only at hm
    have h0 := sle4 d ok.1 ok.2 t
    simp [Spec.modrm, hm, hr8, rmOf, h0]
  | seg s d =>
    simp only [rmPart, Option.some.injEq] at hq; subst hq
    simp only at hb hx
    have hm := modrmByte_div { mod := 0, reg := reg, rm := 4 } (by simp)
    have hs := sibByte_div ⟨0, 4, 5⟩ (by decide)
    simp only at hm hs
    have h0 := sle4 d ok.2.1 ok.2.2 t
    simp at hx
    simp [Spec.modrm, hm, hs, hr8, rmOf, h0, hx]
  | sib base index scale d sz =>
    simp only [rmPart, bind, Option.bind] at hq
    cases hsc : scaleEnc scale with
    | none => simp [hsc] at hq
    | some sc =>
      simp only [hsc] at hq
      have hsp := scaleEnc_spec hsc
      have hi : (if p.x + ixOf index % 8 = 4 then none else some (p.x + ixOf index % 8, 2 ^ sc))
          = index.map fun i => (i.idx, if scale = 0 then 1 else scale) := by
        have hx' : p.x = if decide (7 < ixOf index) then 8 else 0 := by
          cases base <;> simp only [Option.some.injEq] at hq <;> subst hq <;> simpa using hx
        cases index with
        | none => simp [ixOf] at hx'; simp [ixOf, hx']
        | some r =>
          have hr := ok.2.1 r rfl
          have := reg_num r.idx _ p.x hr.1.1 hx' rfl
          simp [ixOf, this, hr.2, hsp.2]
      cases base with
      | none =>
        simp only [Option.some.injEq] at hq; subst hq
        have hm := modrmByte_div { mod := 0, reg := reg, rm := 4 } (by simp)
        have hs := sibByte_div ⟨sc, ixOf index, 5⟩ hsp.1
        simp only at hm hs
        have h0 := sle4 d ok.2.2.1 ok.2.2.2 t
        simp [Spec.modrm, hm, hs, hr8, rmOf, h0, hi]
      | some b =>
        simp only [Option.some.injEq] at hq; subst hq
        simp only at hb
        have hn := reg_num b.idx _ p.b (ok.1 b rfl).1 hb rfl
        have hlt := (ok.1 b rfl).1
        have hs := sibByte_div ⟨sc, ixOf index, b.idx⟩ hsp.1
        simp only at hs
        by_cases h5 : b.idx = 13 ∨ b.idx = 5
        · have hd : d = 0 := by
            simp [goodAddr] at good
            rcases good with h | h
            · omega
            · exact h
          subst hd
          have hm := modrmByte_div { mod := 1, reg := reg, rm := 4 } (by simp)
          simp only at hm
          have h0 : sle 1 (0 :: t) = some (0, t) := by simpa using sle1 0 (by decide) (by decide) t
          simp [Spec.modrm, hm, hs, hr8, rmOf, h5, hi, hn, dispOf, h0]
        · have h5' : b.idx % 8 ≠ 5 := by omega
          by_cases hd : d = 0
          · subst hd
            have hm := modrmByte_div { mod := 0, reg := reg, rm := 4 } (by simp)
            simp only at hm
            simp [Spec.modrm, hm, hs, hr8, rmOf, h5, h5', hi, hn, dispOf]
          · by_cases hsm : -128 ≤ d ∧ d ≤ 127
            · have hm := modrmByte_div { mod := 1, reg := reg, rm := 4 } (by simp)
              simp only at hm
              have h0 := sle1 d hsm.1 hsm.2 t
              simp [Spec.modrm, hm, hs, hr8, rmOf, h5, hd, hsm, hi, hn, dispOf, h0]
            · have hm := modrmByte_div { mod := 2, reg := reg, rm := 4 } (by simp)
              simp only at hm
              have h0 := sle4 d ok.2.2.1 ok.2.2.2 t
              simp [Spec.modrm, hm, hs, hr8, rmOf, h5, hd, hsm, hi, hn, dispOf, h0]
  | u8 v => simp [rmPart] at hq
  | u16 v => simp [rmPart] at hq
  | u32 v => simp [rmPart] at hq
  | u64 v => simp [rmPart] at hq
  | uint v => simp [rmPart] at hq

end Nature.Amd64
