import Verif.Branch.Refs
/-! C76: calls, jumps and references reach the symbols they name. -/
namespace Nature.Branch
open Nature.Amd64 Nature.Amd64.Spec Spec

theorem text_split (qs : List Piece) (k : Nat) (q : Piece) (h : qs[k]? = some q) :
    text qs = text (qs.take k) ++ (q.bytes ++ text (qs.drop (k + 1))) ∧ addr qs (k + 1) = addr qs k + q.bytes.length := by
  obtain ⟨hk, rfl⟩ := List.getElem?_eq_some_iff.1 h
  constructor
  · conv => lhs; rw [← List.take_append_drop k qs, List.drop_eq_getElem_cons hk]
    simp only [text, List.map_append, List.map_cons, List.flatten_append, List.flatten_cons]
  · simp only [addr, text]
    rw [List.take_succ_eq_append_getElem hk]
    simp only [List.map_append, List.map_cons, List.map_nil, List.flatten_append, List.flatten_cons, List.flatten_nil,
      List.append_nil, List.length_append]

theorem text_drop (qs : List Piece) (k : Nat) (q : Piece) (h : qs[k]? = some q) :
    (text qs).drop (addr qs k) = q.bytes ++ text (qs.drop (k + 1)) := by
  rw [(text_split qs k q h).1]
  exact List.drop_left' rfl

theorem addr_le (qs : List Piece) (k : Nat) : addr qs k ≤ (text qs).length := by
  conv => rhs; rw [← List.take_append_drop k qs]
  simp only [addr, text, List.map_append, List.flatten_append, List.length_append]
  omega

theorem addr_mono (qs : List Piece) {j k : Nat} (h : j ≤ k) : addr qs j ≤ addr qs k := by
  have := addr_le (qs.take k) j
  simp only [addr] at this ⊢
  rw [List.take_take, Nat.min_eq_left h] at this
  exact this

theorem text_patch (qs : List Piece) (k : Nat) (q : Piece) (h : qs[k]? = some q) (p : Nat) (d : Int)
    (hp : p + 4 ≤ q.bytes.length) :
    (patch (text qs) (addr qs k + p) d).drop (addr qs k) = patch q.bytes p d ++ text (qs.drop (k + 1)) ∧
    (patch (text qs) (addr qs k + p) d).length = (text qs).length := by
  have e4 : (int32Bytes d).length = 4 := rfl
  have hs := (text_split qs k q h).1
  have hl : addr qs k = (text (qs.take k)).length := rfl
  rw [hs, hl]
  generalize text (qs.take k) = A
  generalize text (qs.drop (k + 1)) = C
  simp only [patch]
  constructor
  · rw [List.take_append, List.take_of_length_le (by omega), Nat.add_sub_cancel_left,
      List.append_assoc, List.append_assoc, List.drop_left' rfl]
    rw [List.drop_append, List.drop_eq_nil_of_le (show A.length ≤ _ by omega)]
    rw [List.take_append_of_le_length (by omega),
      show A.length + p + 4 - A.length = p + 4 by omega, List.drop_append_of_le_length hp]
    simp
  · simp only [List.length_append, List.length_take, List.length_drop, e4]
    omega

/-- **C76** (partial: see the hypotheses).  In an assembled text section of less than 2^31 - 6 bytes with no
name defined twice, the processor that comes to the place of a call or jump finds that instruction there, and
taken, it leads to the address of the label the branch names.  If the module has no such label, there is a
relocation entry for it, and once the linker has entered symbol plus addend minus place, for any load address
and symbol address in reach, the branch leads to that address.

Left out, each with a counterexample below: a branch to the address it is itself at (`hself`), and a branch to
a symbol that was only referred to before (`RefsAfter`). -/
theorem C76_branches_partial (prog : List Item) (qs : List Piece) (h : assemble prog = some qs)
    (hd : Distinct prog) (hra : RefsAfter prog) (hsz : (text qs).length < 2147483642)
    (k : Nat) (n : Name) (s : Sym) (hk : prog[k]? = some (.br n s)) (hn : isBranch n = true)
    (hself : ∀ j : Nat, prog[j]? = some (.label s) → addr qs j ≠ addr qs k) :
    (∃ j : Nat, prog[j]? = some (.label s) ∧ Branches (text qs) n (addr qs k) (addr qs j)) ∨
    ((∀ j : Nat, prog[j]? ≠ some (.label s)) ∧ ∃ q r, qs[k]? = some q ∧ q.rel = some r ∧ r.sym = s ∧
      ∀ base S : Int, Int32 (linked r base S) →
        Branches (patch (text qs) r.offset (linked r base S)) n (addr qs k) (S - base)) := by
  simp only [assemble, bind, Option.bind_eq_some_iff, Prod.exists] at h
  obtain ⟨ps, tab, h1, h2⟩ := h
  obtain ⟨hl1, htab, hp1⟩ := pass1_get _ _ _ _ _ h1
  obtain ⟨hl2, hlk, _, hp2⟩ := pass2_get _ _ _ _ h2
  obtain ⟨p, hpk, hpp⟩ := hp1 k _ hk
  obtain ⟨q, hqk, hfix⟩ := hp2 k p hpk
  have haddr : ∀ j, len (ps.take j) = addr qs j := fun j => (hlk j).symm
  simp only [Nat.zero_add, hlk, haddr] at hpp hfix
  have hbr : ∀ (o : Operand) (diff : Int) (b : Int), diff ≠ 0 → diff = b - addr qs k → 0 ≤ b → b ≤ (text qs).length →
      (o = rewrite n diff ∨ o = rewrite2 n diff) → encode ⟨n, [o]⟩ = some q.bytes →
      Branches (text qs) n (addr qs k) b := by
    intro o diff b hne hdiff hb0 hb ho he
    have := addr_le qs k
    obtain ⟨m, hm, w, v, hdec, hv⟩ := rewrite_spec n hn diff hne (by omega) (by omega) o ho q.bytes he (text (qs.drop (k + 1)))
    refine ⟨m, hm, w, v, _, by rw [text_drop qs k q hqk]; exact hdec, ?_⟩
    have hs := congrArg List.length (text_split qs k q hqk).1
    simp only [List.length_append] at hs
    have : addr qs k = (text (qs.take k)).length := rfl
    omega
  by_cases hlab : ∃ j : Nat, prog[j]? = some (.label s)
  · left
    obtain ⟨j, hj⟩ := hlab
    refine ⟨j, hj, ?_⟩
    have hne := hself j hj
    have hjle := addr_le qs j
    have hkle := addr_le qs k
    have hw : wrap32 ((addr qs j : Int) - addr qs k) = (addr qs j : Int) - addr qs k := wrap32_id _ (by omega) (by omega)
    have hjk : j ≠ k := by rintro rfl; rw [hk] at hj; cases hj
    by_cases hlt : j < k
    · -- the label is behind
      have ht := tab_label (prog.take k) (ps.take k) [] 0 j s (by simp [hl1])
        (by rw [List.getElem?_take, if_pos hlt]; exact hj)
        (fun m hm => by
          rw [List.getElem?_take] at hm
          split at hm
          · exact hd m j s hm hj
          · cases hm)
      rw [List.take_take, Nat.min_eq_left (by omega), Nat.zero_add, haddr] at ht
      simp only [piece, ht, hw, bind, Option.bind_eq_some_iff, pure, Option.some.injEq] at hpp
      obtain ⟨b, hb, rfl⟩ := hpp
      simp only [fix, Option.some.injEq] at hfix
      subst hfix
      exact hbr _ _ (addr qs j) (by omega) rfl (by omega) (by omega) (Or.inl rfl) hb
    · -- the label is ahead
      have ht : (tabOf [] 0 (prog.take k) (ps.take k)).get s = none := by
        refine tab_none _ _ _ _ _ rfl ?_
        intro it hit
        obtain ⟨m, hm⟩ := List.getElem?_of_mem hit
        rw [List.getElem?_take] at hm
        split at hm
        · rename_i hmk
          constructor
          · rintro rfl
            have := hd m j s hm hj
            omega
          · rintro i tls rfl
            obtain ⟨m', hm', hl⟩ := hra m k n s i tls hk hmk hm
            have := hd m' j s hl hj
            omega
        · cases hm
      simp only [piece, ht, bind, Option.bind_eq_some_iff, pure, Option.some.injEq] at hpp
      obtain ⟨b0, hb0, rfl⟩ := hpp
      have htf : tab.get s = some (addr qs j) := by
        rw [htab, tab_label prog ps [] 0 j s hl1 hj (fun m hm => hd m j s hm hj), Nat.zero_add, haddr]
      have hpos : 0 < addr qs j := by
        have := addr_mono qs (show k + 1 ≤ j by omega)
        have h3 := (text_split qs k q hqk).2
        have := addr_mono qs (show k ≤ j by omega)
        omega
      simp only [fix, htf, Option.getD_some, hpos, if_true, hw, bind, Option.bind_eq_some_iff] at hfix
      obtain ⟨b, hb, hfix⟩ := hfix
      split at hfix
      · simp only [Option.some.injEq] at hfix
        subst hfix
        exact hbr _ _ (addr qs j) (by omega) rfl (by omega) (by omega) (Or.inr rfl) hb
      · cases hfix
  · right
    have hnl : ∀ j : Nat, prog[j]? ≠ some (.label s) := fun j hj => hlab ⟨j, hj⟩
    refine ⟨hnl, ?_⟩
    have ht : (tabOf [] 0 (prog.take k) (ps.take k)).get s = none := by
      refine tab_none _ _ _ _ _ rfl ?_
      intro it hit
      obtain ⟨m, hm⟩ := List.getElem?_of_mem hit
      rw [List.getElem?_take] at hm
      split at hm
      · rename_i hmk
        constructor
        · rintro rfl; exact hnl m hm
        · rintro i tls rfl
          obtain ⟨m', hm', hl⟩ := hra m k n s i tls hk hmk hm
          exact hnl m' hl
      · cases hm
    simp only [piece, ht, bind, Option.bind_eq_some_iff, pure, Option.some.injEq] at hpp
    obtain ⟨b0, hb0, rfl⟩ := hpp
    have htf : (tab.get s).getD 0 = 0 := by
      rw [htab]
      refine tab_zero _ _ _ _ _ rfl ?_
      rintro it hit rfl
      obtain ⟨m, hm⟩ := List.getElem?_of_mem hit
      exact hnl m hm
    simp only [fix, htf, Nat.lt_irrefl, if_false, Option.some.injEq] at hfix
    subst hfix
    refine ⟨_, _, hqk, rfl, rfl, ?_⟩
    intro base S hi
    have hop : rewrite n 0 = .u32 0 := by simp [rewrite]
    rw [hop] at hb0 hqk hi ⊢
    obtain ⟨pre, hpre, henc⟩ := enc_long n hn
    have he := henc 0
    rw [hb0, Option.some.injEq] at he
    subst he
    have hro : ripOffset (pre ++ leBytes 4 0).length ⟨n, [.u32 0]⟩ = pre.length := by
      simp [ripOffset, leBytes_length]
    rw [hro] at hqk hi ⊢
    generalize hdd : linked _ base S = d at hi ⊢
    simp only [linked] at hdd
    obtain ⟨tp, tl⟩ := text_patch qs k _ hqk pre.length d (by simp [leBytes_length])
    obtain ⟨i1, i2⟩ := hi
    have he' := henc (d % 4294967296).toNat
    obtain ⟨m, hm, hdec⟩ := dec_imm n hn (.u32 (d % 4294967296).toNat) 4 _ (Or.inl ⟨rfl, rfl⟩) (show _ < _ by omega) _ he'
      (text (qs.drop (k + 1)))
    refine ⟨m, hm, 4, (d % 4294967296).toNat, text (qs.drop (k + 1)), ?_, ?_⟩
    · rw [tp, ← hdec]
      have e1 : int32Bytes d = leBytes 4 (d % 4294967296).toNat := by
        simp only [int32Bytes, leBytes, List.cons.injEq, and_true]
        omega
      have e2 : (leBytes 4 0).drop 4 = [] := rfl
      simp [patch, e1, e2]
    · rw [tl]
      have hs := congrArg List.length (text_split qs k _ hqk).1
      simp only [List.length_append, leBytes_length] at hs
      have : addr qs k = (text (qs.take k)).length := rfl
      simp only [signed]
      split <;> omega

theorem supported_withDisp (i : Inst) (d : Int) (h : Supported i) : Supported (withDisp i d) := by
  have hkeys : (withDisp i d).ops.map Operand.key = i.ops.map Operand.key := by
    simp only [withDisp, List.map_map]
    exact List.map_congr_left (fun x _ => (withDisp_key d x).1)
  have hregs : (withDisp i d).regs = i.regs := by
    simp only [Inst.regs, withDisp, List.flatMap_map]
    congr 1
    funext x; exact (withDisp_key d x).2
  have hreg : ∀ (o : Operand) (r : Reg), setDisp d o = .reg r → o = .reg r := by
    intro o r ho; cases o <;> simp [setDisp] at ho ⊢ <;> exact ho
  refine ⟨?_, ?_, ?_, ?_⟩
  · intro o ho
    simp only [withDisp, List.mem_map] at ho
    obtain ⟨o', ho', rfl⟩ := ho
    have := h.addr o' ho'
    cases o' <;> first | exact this | rfl
  · intro hx
    rw [hregs] at hx
    have := h.high hx
    simpa [Inst.needRex, hregs] using this
  · rcases h.row with hx | ⟨hn, a, b, hops, hrest⟩
    · left; rw [hkeys]; exact hx
    · right
      exact ⟨hn, a, b, by simp [withDisp, hops, setDisp], hrest⟩
  · intro hc o r hops
    simp only [withDisp] at hops
    rcases hl : i.ops with _ | ⟨o1, _ | ⟨o2, _ | ⟨o3, l⟩⟩⟩
    · rw [hl] at hops; simp at hops
    · rw [hl] at hops; simp at hops
    · rw [hl] at hops
      simp only [List.map_cons, List.map_nil, List.cons.injEq, and_true] at hops
      have := hreg o2 r hops.2
      subst this
      exact h.count hc o1 r hl
    · rw [hl] at hops; simp at hops

theorem sensible_withDisp (i : Inst) (d : Int) (hd : Int32 d) (h : Sensible i) : Sensible (withDisp i d) := by
  intro o ho
  simp only [withDisp, List.mem_map] at ho
  obtain ⟨o', ho', rfl⟩ := ho
  have := h o' ho'
  cases o' <;> first | exact this | exact hd | exact ⟨this.1, hd⟩

/-- **C76**, references (for instructions in the scope of C75).  An instruction with a symbol for an address
has a relocation entry for that symbol, and once the linker has put a number in the entry's place, the
processor that comes to the instruction finds it, entire, with that number for its displacement.  For a
PC-relative entry filled with symbol plus addend minus place, for any load address and symbol address in reach,
the address the processor computes, displacement plus the address of the next instruction, is the
symbol's. -/
theorem C76_references_partial (prog : List Item) (qs : List Piece) (h : assemble prog = some qs)
    (k : Nat) (i : Inst) (s : Sym) (tls : Bool) (hk : prog[k]? = some (.ref i s tls)) (hi : RefOk i tls)
    (hs : Sensible i) (hp : Supported i) :
    ∃ q r, qs[k]? = some q ∧ q.rel = some r ∧ r.sym = s ∧ r.tls = tls ∧ (tls = true → r.addend = 0) ∧
      ∀ d : Int, Int32 d → ∃ insn ∈ accepted (withDisp i d), ∃ rest,
        decode ((patch (text qs) r.offset d).drop (addr qs k)) = some (insn, rest) ∧
        (text qs).length - rest.length = addr qs (k + 1) ∧
        ∀ base S : Int, tls = false → d = linked r base S → base + addr qs (k + 1) + d = S := by
  simp only [assemble, bind, Option.bind_eq_some_iff, Prod.exists] at h
  obtain ⟨ps, tab, h1, h2⟩ := h
  obtain ⟨hl1, htab, hp1⟩ := pass1_get _ _ _ _ _ h1
  obtain ⟨hl2, hlk, _, hp2⟩ := pass2_get _ _ _ _ h2
  obtain ⟨p, hpk, hpp⟩ := hp1 k _ hk
  obtain ⟨q, hqk, hfix⟩ := hp2 k p hpk
  have haddr : ∀ j, len (ps.take j) = addr qs j := fun j => (hlk j).symm
  simp only [Nat.zero_add, hlk, haddr] at hpp hfix
  simp only [piece, bind, Option.bind_eq_some_iff, pure, Option.some.injEq] at hpp
  obtain ⟨b, hb, rfl⟩ := hpp
  simp only [fix, Option.some.injEq] at hfix
  subst hfix
  refine ⟨_, _, hqk, rfl, rfl, rfl, fun ht => by simp [ht], ?_⟩
  intro d hd
  obtain ⟨henc, hpos⟩ := enc_patch i tls hi b hb d
  obtain ⟨insn, hm, hdec⟩ := C75_encodes_partial (withDisp i d) _ henc (sensible_withDisp i d hd hs)
    (supported_withDisp i d hp) (text (qs.drop (k + 1)))
  obtain ⟨tp, tl⟩ := text_patch qs k _ hqk (ripOffset b.length i) d hpos
  obtain ⟨t1, t2⟩ := text_split qs k _ hqk
  have t1 := congrArg List.length t1
  simp only [List.length_append] at t1 t2
  have ha : addr qs k = (text (qs.take k)).length := rfl
  refine ⟨insn, hm, _, by rw [tp]; exact hdec, by omega, ?_⟩
  intro base S ht hlink
  subst ht
  simp only [linked, Bool.false_eq_true, if_false] at hlink
  rw [t2]
  omega

/-! ## The hypotheses can be met -/

/-- A loop, a forward jump, a call of a function that is elsewhere, and a load of a variable. -/
def sample : List Item :=
  [.label "main", .ref ⟨.mov, [.reg rax, .rip 0 8]⟩ "v" false, .label "loop", .other ⟨.cmp, [.reg rax, .u32 7]⟩,
   .br .je "done", .br .call "f", .br .jmp "loop", .label "done", .other ⟨.ret, []⟩]

def sampleText : List Piece :=
  [{ bytes := [] }, { bytes := [0x48, 0x8b, 0x05, 0, 0, 0, 0], rel := some ⟨3, "v", false, -4⟩ }, { bytes := [] },
   { bytes := [0x48, 0x81, 0xf8, 7, 0, 0, 0] }, { bytes := [0x0f, 0x84, 7, 0, 0, 0], pend := some (.je, "done") },
   { bytes := [0xe8, 0, 0, 0, 0], pend := some (.call, "f"), rel := some ⟨21, "f", false, -4⟩ },
   { bytes := [0xeb, 0xec] }, { bytes := [] }, { bytes := [0xc3] }]

example : assemble sample = some sampleText := by decide +kernel

theorem sample_distinct : Distinct sample := by
  intro j k s hj hk
  have hj' : j < 9 := (List.getElem?_eq_some_iff.1 hj).1
  have hk' : k < 9 := (List.getElem?_eq_some_iff.1 hk).1
  have e : ∀ m : Nat, m < 9 → ∀ s, sample[m]? = some (.label s) →
      (m = 0 ∧ s = "main") ∨ (m = 2 ∧ s = "loop") ∨ (m = 7 ∧ s = "done") := by
    intro m hm s h
    match m with
    | 0 => simp [sample] at h; simp [h]
    | 2 => simp [sample] at h; simp [h]
    | 7 => simp [sample] at h; simp [h]
    | 1 | 3 | 4 | 5 | 6 | 8 => simp [sample] at h
    | n + 9 => omega
  rcases e j hj' s hj with ⟨rfl, rfl⟩ | ⟨rfl, rfl⟩ | ⟨rfl, rfl⟩ <;>
    rcases e k hk' _ hk with ⟨rfl, h⟩ | ⟨rfl, h⟩ | ⟨rfl, h⟩ <;> first | rfl | (exfalso; revert h; decide)

theorem sample_refsAfter : RefsAfter sample := by
  intro j k n s i tls hk hjk hj
  exfalso
  have hj' : j < 9 := (List.getElem?_eq_some_iff.1 hj).1
  have hk' : k < 9 := (List.getElem?_eq_some_iff.1 hk).1
  have hs : s = "v" := by
    match j with
    | 1 => simp [sample] at hj; exact hj.2.1.symm
    | 0 | 2 | 3 | 4 | 5 | 6 | 7 | 8 => simp [sample] at hj
    | n + 9 => omega
  subst hs
  match k with
  | 0 | 1 | 2 | 3 | 4 | 5 | 6 | 7 | 8 => simp [sample] at hk
  | n + 9 => omega

/-- The three branches and the reference of the sample satisfy the hypotheses of both theorems. -/
example : assemble sample = some sampleText ∧ Distinct sample ∧ RefsAfter sample ∧ (text sampleText).length < 2147483642 ∧
    sample[6]? = some (.br .jmp "loop") ∧ addr sampleText 2 ≠ addr sampleText 6 ∧
    Branches (text sampleText) .jmp (addr sampleText 6) (addr sampleText 2) ∧
    sample[1]? = some (.ref ⟨.mov, [.reg rax, .rip 0 8]⟩ "v" false) ∧ RefOk ⟨.mov, [.reg rax, .rip 0 8]⟩ false ∧
    Sensible ⟨.mov, [.reg rax, .rip 0 8]⟩ ∧ Supported ⟨.mov, [.reg rax, .rip 0 8]⟩ := by
  refine ⟨by decide +kernel, sample_distinct, sample_refsAfter, by decide, rfl, by decide, ?_, rfl, ?_, ?_, ?_⟩
  · exact ⟨.jmp, by decide, 1, 0xec, [0xc3], by decide +kernel, by decide⟩
  · exact ⟨[.reg rax], .rip 0 8, [], rfl, by decide, Or.inl ⟨rfl, 8, rfl⟩⟩
  · intro o ho
    simp only [List.mem_cons, List.not_mem_nil, or_false] at ho
    rcases ho with rfl | rfl
    · exact ⟨by decide, by decide⟩
    · exact ⟨by decide, by decide⟩
  · refine ⟨?_, ?_, Or.inl (by decide +kernel), ?_⟩
    · intro o ho
      simp only [List.mem_cons, List.not_mem_nil, or_false] at ho
      rcases ho with rfl | rfl <;> rfl
    · rintro ⟨r, hr, hh⟩
      simp [Inst.regs, Operand.regs] at hr
      subst hr; cases hh
    · intro h; exact absurd h (by decide)

/-! ## What goes wrong -/

/-- A jump to its own address: the distance 0 is taken for "not known yet", and the jump goes to the next
instruction. -/
theorem C76_self_jump_counterexample :
    assemble [.label "l", .br .jmp "l"] = some [{ bytes := [] }, { bytes := [0xe9, 0, 0, 0, 0] }] ∧
    Branches [0xe9, 0, 0, 0, 0] .jmp 0 5 ∧ ¬ Branches [0xe9, 0, 0, 0, 0] .jmp 0 0 := by
  refine ⟨by decide +kernel, ⟨.jmp, by decide, 4, 0, [], by decide +kernel, by decide⟩, ?_⟩
  rintro ⟨m, hm, w, v, rest, hd, he⟩
  have : decode (List.drop 0 [0xe9, 0, 0, 0, 0]) = some (⟨.jmp, [.imm 4 0]⟩, []) := by decide +kernel
  rw [this] at hd
  simp only [Option.some.injEq, Prod.mk.injEq, Insn.mk.injEq, List.cons.injEq, Arg.imm.injEq, and_true] at hd
  obtain ⟨⟨_, rfl, rfl⟩, rfl⟩ := hd
  revert he; decide

/-- The address of a function is taken and then the function is called, before its own code is placed: the
call goes to the start of the text section, not to the function, and no relocation is left to correct it. -/
theorem C76_call_after_reference_counterexample :
    let prog : List Item := [.ref ⟨.lea, [.reg rax, .rip 0 8]⟩ "f" false, .br .call "f", .label "f", .other ⟨.ret, []⟩]
    let t := [0x48, 0x8d, 0x05, 0, 0, 0, 0, 0xe8, 0xf4, 0xff, 0xff, 0xff, 0xc3]
    ∃ qs, assemble prog = some qs ∧ text qs = t ∧ addr qs 2 = 12 ∧ (qs.map Piece.rel)[1]? = some none ∧
      Branches t .call 7 0 ∧ ¬ Branches t .call 7 12 := by
  refine ⟨[{ bytes := [0x48, 0x8d, 0x05, 0, 0, 0, 0], rel := some ⟨3, "f", false, -4⟩ },
    { bytes := [0xe8, 0xf4, 0xff, 0xff, 0xff] }, { bytes := [] }, { bytes := [0xc3] }], by decide +kernel, by decide, by decide,
    by decide, ⟨.call, by decide, 4, 0xfffffff4, [0xc3], by decide +kernel, by decide⟩, ?_⟩
  rintro ⟨m, hm, w, v, rest, hd, he⟩
  have : decode (List.drop 7 [0x48, 0x8d, 0x05, 0, 0, 0, 0, 0xe8, 0xf4, 0xff, 0xff, 0xff, 0xc3]) =
    some (⟨.call, [.imm 4 0xfffffff4]⟩, [0xc3]) := by decide +kernel
  rw [this] at hd
  simp only [Option.some.injEq, Prod.mk.injEq, Insn.mk.injEq, List.cons.injEq, Arg.imm.injEq, and_true] at hd
  obtain ⟨⟨_, rfl, rfl⟩, rfl⟩ := hd
  revert he; decide

end Nature.Branch
