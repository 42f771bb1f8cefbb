import Verif.Consts.Lemmas
namespace Nature.Consts

/-- **C82 (partial)**.  For every module, with any global variables and any functions with any constants in them, in which no
string has a zero byte and no floating point number of 64 bits is a number of 32 bits of the module filled up with zeros: the
module is compiled, and for every constant of every function the program gets the constant's bytes.  Missing: the other modules
(false for them, see below). -/
theorem C82_constants_partial (globals : List Sym) (fns : List (List Const))
    (hs : ∀ f ∈ fns, ∀ s, .str s ∈ f → 0 ∉ s)
    (hn : ∀ f ∈ fns, ∀ g ∈ fns, ∀ x y, .f32 x ∈ f → .f64 y ∈ g → x.toNat ≠ y.toNat) :
    ∃ data offs uses, compile globals fns = some (data, offs, uses) ∧
      ∀ (i j : Nat) (f : List Const) (c : Const), fns[i]? = some f → f[j]? = some c →
        ∃ us u, uses[i]? = some us ∧ us[j]? = some u ∧ taken globals data offs u = bytes c := by
  have D : Distinct fun c => ∃ f ∈ fns, c ∈ f :=
    ⟨fun s ⟨f, hf, h⟩ => hs f hf s h, fun x y ⟨f, hf, h⟩ ⟨g, hg, h'⟩ => hn f hf g hg x y h h'⟩
  have O : Ok1 (fun c => ∃ f ∈ fns, c ∈ f) ⟨Nature.Table.new, []⟩ :=
    ⟨Nature.Table.new_ok _, fun k u ⟨j, hj⟩ => by simp [Nature.Table.new] at hj⟩
  obtain ⟨st, uss, h1, _, h3⟩ := lowerFns_ok D fns _ O (fun f hf c hc => ⟨f, hf, hc⟩)
  obtain ⟨_, p2, p3⟩ := place_ok (globals ++ st.syms) []
  refine ⟨_, _, uss, by simp only [compile, h1, Option.bind_eq_bind, Option.bind_some]; rfl, ?_⟩
  intro i j f c hf hc
  obtain ⟨us, g1, g2⟩ := h3 i f hf
  obtain ⟨u, g3, g4, g5⟩ := g2 j c hc
  refine ⟨us, u, g1, g3, ?_⟩
  have : (globals ++ st.syms)[globals.length + u.sym]? = some (symOf c) := by
    rw [List.getElem?_append_right (by omega), show globals.length + u.sym - globals.length = u.sym by omega]; exact g5
  obtain ⟨off, q1, q2, _⟩ := p3 _ _ this
  unfold taken
  rw [List.getD_eq_getElem?_getD, q1, g4, ← sym_take, ← q2, List.take_take, Nat.min_eq_left (width_le c)]
  rfl

/-- **C82**: global variables have their initial bytes, and nothing else is put where they are. -/
theorem C82_globals (globals : List Sym) (fns : List (List Const)) {data : Bytes} {offs : List Nat} {uses : List (List Use)}
    (h : compile globals fns = some (data, offs, uses)) {i : Nat} {g : Sym} (hg : globals[i]? = some g) :
    ∃ off, offs[i]? = some off ∧ (data.drop off).take g.value.length = g.value ∧ off + g.value.length ≤ data.length ∧
      ∀ j g', i < j → globals[j]? = some g' → ∃ off', offs[j]? = some off' ∧ off + g.value.length ≤ off' := by
  unfold compile at h
  cases hl : lowerFns fns ⟨Nature.Table.new, []⟩ with
  | none => rw [hl] at h; cases h
  | some r =>
    obtain ⟨st, uss⟩ := r
    simp only [hl, Option.bind_eq_bind, Option.bind_some] at h
    cases h
    have hap : ∀ {i : Nat} {g : Sym}, globals[i]? = some g → (globals ++ st.syms)[i]? = some g := by
      intro i g hg
      rw [List.getElem?_append_left (List.getElem?_eq_some_iff.1 hg).1]; exact hg
    obtain ⟨_, _, p3⟩ := place_ok (globals ++ st.syms) []
    obtain ⟨off, q1, q2, _, q4, q5⟩ := p3 i g (hap hg)
    exact ⟨off, q1, q2, q4, fun j g' hj hg' => q5 j g' hj (hap hg')⟩

/-- Two functions that share constants, with strings, numbers of both kinds, and a global variable. -/
def sample : List (List Const) :=
  [[.str [104, 105], .f64 0x3ff8000000000000#64, .f64 0x3ff8000000000000#64, .f32 0x3fc00000#32], [.f32 0x3fc00000#32, .str [104, 105], .str [102, 58]]]

example : (compile [⟨[1, 2, 3], 4⟩] sample).map (fun r => (r.1, r.2.1, r.2.2)) = some
    ([1, 2, 3, 104, 105, 0, 0, 0, 0, 0, 0, 0, 0, 0, 248, 63, 0, 0, 192, 63, 102, 58, 0], [0, 3, 8, 16, 20],
      [[⟨0, 2⟩, ⟨1, 8⟩, ⟨1, 8⟩, ⟨2, 4⟩], [⟨2, 4⟩, ⟨0, 2⟩, ⟨3, 2⟩]]) ∧
    (∀ f ∈ sample, ∀ s, .str s ∈ f → 0 ∉ s) ∧ ∀ f ∈ sample, ∀ g ∈ sample, ∀ x y, .f32 x ∈ f → .f64 y ∈ g → x.toNat ≠ y.toNat := by
  refine ⟨by decide +kernel, ?_, ?_⟩
  · intro f hf s hs
    simp [sample] at hf
    rcases hf with rfl | rfl <;> simp at hs
    · subst hs; decide
    · rcases hs with rfl | rfl <;> decide
  · intro f hf g hg x y hx hy
    simp [sample] at hf hg
    have hx : x = 0x3fc00000#32 := by rcases hf with rfl | rfl <;> simpa using hx
    have hy : y = 0x3ff8000000000000#64 := by rcases hg with rfl | rfl <;> simpa using hy
    subst hx; subst hy; decide

/-- C82 fails for strings with a zero byte: of two string constants that agree up to a zero the second is the first (here
`"a\0b"` and `"a\0c"`). -/
theorem C82_string_counterexample :
    ∃ data offs u v, compile [] [[.str [97, 0, 98], .str [97, 0, 99]]] = some (data, offs, [[u, v]]) ∧
      taken [] data offs u = [97, 0, 98] ∧ taken [] data offs v = [97, 0, 98] :=
  ⟨[97, 0, 98, 0], [0], ⟨0, 3⟩, ⟨0, 3⟩, by decide +kernel, by decide +kernel, by decide +kernel⟩

/-- And a shorter constant that is there first makes the program read after its end: `"a"`, then `"a\0bcd"` in a module with
another string after it. -/
theorem C82_string_end_counterexample :
    ∃ data offs u v w, compile [] [[.str [97], .str [97, 0, 98, 99, 100], .str [120, 121, 122]]] = some (data, offs, [[u, v, w]]) ∧
      taken [] data offs v = [97, 0, 120, 121, 122] :=
  ⟨[97, 0, 120, 121, 122, 0], [0, 2], ⟨0, 1⟩, ⟨0, 5⟩, ⟨1, 3⟩, by decide +kernel, by decide +kernel⟩

/-- C82 fails for zero: once a function of the module has the constant 0.0 as a number of 32 bits, another function that has 0.0
as a number of 64 bits takes eight bytes of the symbol of four bytes, and what follows it (here a string). -/
theorem C82_zero_counterexample :
    ∃ data offs u v w, compile [] [[.f32 0#32, .str [104, 101, 108, 108, 111]], [.f64 0#64]] = some (data, offs, [[u, v], [w]]) ∧
      taken [] data offs w = [0, 0, 0, 0, 104, 101, 108, 108] ∧ taken [] data offs w ≠ bytes (.f64 0#64) :=
  ⟨[0, 0, 0, 0, 104, 101, 108, 108, 111, 0], [0, 4], ⟨0, 4⟩, ⟨1, 5⟩, ⟨0, 8⟩, by decide +kernel, by decide +kernel, by decide +kernel⟩

/-- In the same function the variable of 32 bits is used for the number of 64 bits, and the other way round. -/
theorem C82_zero_width_counterexample :
    ∃ data offs u v, compile [] [[.f32 0#32, .f64 0#64]] = some (data, offs, [[u, v]]) ∧ v.width = 4 ∧ taken [] data offs v ≠ bytes (.f64 0#64) :=
  ⟨[0, 0, 0, 0], [0], ⟨0, 4⟩, ⟨0, 4⟩, by decide +kernel, by decide +kernel, by decide +kernel⟩

/-- **C82, arm64**: a number that is put in the instruction is the number the instruction stands for.  For all 2^64 numbers. -/
theorem C82_arm64_immediate (b : BitVec 64) (h : fmovImm8 b ≠ 255) : fmovImm8 b < 256 ∧ vfpExpandImm (fmovImm8 b) = b.toNat := by
  have hb := b.isLt
  unfold fmovImm8 at h ⊢
  dsimp only at h ⊢
  generalize b.toNat = n at *
  split at h
  · exact absurd rfl h
  rename_i h1
  rw [if_neg h1]
  split at h
  · exact absurd rfl h
  rename_i h2
  rw [if_neg h2]
  split at h
  · exact absurd rfl h
  rename_i h3
  rw [if_neg h3]
  by_cases h5 : n / 2 ^ 52 % 2 ^ 11 / 4 % 256 = 255
  · rw [if_pos h5] at h ⊢
    by_cases h4 : n / 2 ^ 52 % 2 ^ 11 / 2 ^ 10 % 2 ≠ 1 - 1
    · rw [if_pos h4] at h; exact absurd rfl h
    rw [if_neg h4] at h ⊢
    generalize hm : n / 2 ^ 63 % 2 * 128 + 1 * 64 + n / 2 ^ 52 % 2 ^ 11 % 4 * 16 + n % 2 ^ 52 / 2 ^ 48 % 16 = m
    have a1 : m / 64 % 2 = 1 := by omega
    unfold vfpExpandImm
    dsimp only
    rw [if_pos a1]
    omega
  · have h6 : n / 2 ^ 52 % 2 ^ 11 / 4 % 256 = 0 := by omega
    rw [if_neg h5] at h ⊢
    by_cases h4 : n / 2 ^ 52 % 2 ^ 11 / 2 ^ 10 % 2 ≠ 1 - 0
    · rw [if_pos h4] at h; exact absurd rfl h
    rw [if_neg h4] at h ⊢
    generalize hm : n / 2 ^ 63 % 2 * 128 + 0 * 64 + n / 2 ^ 52 % 2 ^ 11 % 4 * 16 + n % 2 ^ 52 / 2 ^ 48 % 16 = m
    have a1 : m / 64 % 2 = 0 := by omega
    unfold vfpExpandImm
    dsimp only
    rw [if_neg (by omega)]
    omega

example : fmovImm8 0x4000000000000000#64 = 0 ∧ fmovImm8 0x3ff0000000000000#64 = 112 ∧ fmovImm8 0xbfe0000000000000#64 = 224 ∧ fmovImm8 0#64 = 255 := by
  refine ⟨by decide +kernel, by decide +kernel, by decide +kernel, by decide +kernel⟩

/-- The numbers that fit are put in the instruction, but for -1.9375, whose code is 255. -/
theorem C82_arm64_immediate_all (m : Nat) (h : m < 255) : fmovImm8 (BitVec.ofNat 64 (vfpExpandImm m)) = m := by
  have : ∀ m < 255, fmovImm8 (BitVec.ofNat 64 (vfpExpandImm m)) = m := by decide +kernel
  exact this m h

end Nature.Consts
