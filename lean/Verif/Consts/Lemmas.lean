import Verif.Consts.Spec
import Verif.Table.Props
namespace Nature.Consts
open Nature.Table (Key hashString Has Ok)

/-! ### Names -/

def val (l : Bytes) : Nat := l.foldl (fun a c => a * 10 + (c.toNat - 48)) 0

theorem dig_toNat {n : Nat} (h : n < 10) : (UInt8.ofNat (48 + n)).toNat = 48 + n := by
  rw [UInt8.toNat_ofNat']; omega

theorem val_digits (n : Nat) : val (digits n) = n := by
  induction n using Nat.strongRecOn with
  | ind n ih =>
    unfold digits
    split
    · rename_i h
      simp only [val, List.foldl, dig_toNat h]; omega
    · rename_i h
      have := ih (n / 10) (by omega)
      unfold val at this ⊢
      rw [List.foldl_append, this]
      simp only [List.foldl, dig_toNat (show n % 10 < 10 by omega)]
      omega

theorem digits_head (n : Nat) : ∀ x ∈ (digits n).head?, x ≠ 45 := by
  induction n using Nat.strongRecOn with
  | ind n ih =>
    unfold digits
    split
    · rename_i h
      intro x hx e
      have hx : UInt8.ofNat (48 + n) = x := by simpa only [List.head?_cons, Option.mem_def, Option.some.injEq] using hx
      have := congrArg UInt8.toNat hx
      rw [e, dig_toNat h] at this
      simp at this; omega
    · rename_i h
      intro x hx
      rw [List.head?_append] at hx
      have hn := ih (n / 10) (by omega)
      cases hd : (digits (n / 10)).head? with
      | none =>
        exfalso
        have : digits (n / 10) ≠ [] := by
          rw [digits]; split <;> simp
        exact this (List.head?_eq_none_iff.1 hd)
      | some y =>
        rw [hd] at hx hn
        simp at hx
        subst hx
        exact hn _ rfl

theorem itoa_inj {i j : Int} (h : itoa i = itoa j) : i = j := by
  have hd : ∀ {m n : Nat}, digits m = digits n → m = n := fun {m n} e => by rw [← val_digits m, e, val_digits]
  have hne : ∀ {m n : Nat}, 45 :: digits m ≠ digits n := fun {m n} e => digits_head n 45 (by rw [← e]; rfl) rfl
  unfold itoa at h
  split at h
  · split at h
    · have := hd (List.cons.inj h).2; omega
    · exact absurd h hne
  · split at h
    · exact absurd h.symm hne
    · have := hd h; omega

theorem cstr_eq {s : Bytes} (h : 0 ∉ s) : cstr s = s := by
  unfold cstr
  induction s with
  | nil => rfl
  | cons a s ih =>
    rw [List.mem_cons, not_or] at h
    rw [List.takeWhile_cons, if_pos (by simpa using Ne.symm h.1), ih h.2]

/-- The constants of a module for which the names differ: no string has a zero byte, and no number of 64 bits is a number of 32
bits filled up with zeros. -/
structure Distinct (A : Const → Prop) : Prop where
  str : ∀ s, A (.str s) → 0 ∉ s
  num : ∀ x y, A (.f32 x) → A (.f64 y) → x.toNat ≠ y.toNat

theorem toInt_inj {x y : BitVec 64} (h : x.toInt = y.toInt) : x = y := BitVec.eq_of_toInt_eq h

theorem f32_ne {x : BitVec 32} {y : BitVec 64} (h : x.toNat ≠ y.toNat) : (x.toNat : Int) ≠ y.toInt := by
  intro e
  have hx := x.isLt
  have hy := y.isLt
  rw [BitVec.toInt_eq_toNat_cond] at e
  split at e <;> omega

theorem key_inj {A : Const → Prop} (D : Distinct A) {c d : Const} (hc : A c) (hd : A d) (h : key c = key d) : c = d := by
  cases c with
  | str s =>
    cases d with
    | str t =>
      simp only [key, cstr_eq (D.str s hc), cstr_eq (D.str t hd)] at h
      rw [List.append_cancel_left h]
    | f64 y => simp [key] at h
    | f32 y => simp [key] at h
  | f64 x =>
    cases d with
    | str t => simp [key] at h
    | f64 y =>
      simp only [key, intValue] at h
      rw [toInt_inj (itoa_inj (List.append_cancel_left h))]
    | f32 y =>
      simp only [key, intValue] at h
      exact absurd (itoa_inj (List.append_cancel_left h)).symm (f32_ne (D.num y x hd hc))
  | f32 x =>
    cases d with
    | str t => simp [key] at h
    | f64 y =>
      simp only [key, intValue] at h
      exact absurd (itoa_inj (List.append_cancel_left h)) (f32_ne (D.num x y hc hd))
    | f32 y =>
      simp only [key, intValue] at h
      have := itoa_inj (List.append_cancel_left h)
      rw [BitVec.eq_of_toNat_eq (show x.toNat = y.toNat by omega)]

/-! ### Symbols -/

/-- What is done for the constant is right. -/
def Right (syms : List Sym) (c : Const) (u : Use) : Prop := u.width = width c ∧ syms[u.sym]? = some (symOf c)

theorem Right.mono {syms syms' : List Sym} {c : Const} {u : Use} (h : Right syms c u) (hp : syms <+: syms') : Right syms' c u := by
  obtain ⟨e, rfl⟩ := hp
  refine ⟨h.1, ?_⟩
  rw [List.getElem?_append_left (List.getElem?_eq_some_iff.1 h.2).1]
  exact h.2

structure Ok1 (A : Const → Prop) (st : St) : Prop where
  ok : Ok hashString st.table
  has : ∀ k i, Has st.table.entries k i → ∃ c, A c ∧ k = key c ∧ st.syms[i]? = some (symOf c)

structure Ok2 (A : Const → Prop) (syms : List Sym) (loc : Nature.Table.T Use) : Prop where
  ok : Ok hashString loc
  has : ∀ k u, Has loc.entries k u → ∃ c, A c ∧ k = key c ∧ Right syms c u

theorem Ok2.mono {A : Const → Prop} {syms syms' : List Sym} {loc : Nature.Table.T Use} (h : Ok2 A syms loc) (hp : syms <+: syms') : Ok2 A syms' loc :=
  ⟨h.ok, fun k u hh => by obtain ⟨c, h1, h2, h3⟩ := h.has k u hh; exact ⟨c, h1, h2, h3.mono hp⟩⟩

theorem symbol_ok {A : Const → Prop} (D : Distinct A) {st : St} (O : Ok1 A st) {c : Const} (hc : A c) :
    ∃ st' i, symbol st c = some (st', i) ∧ Ok1 A st' ∧ st.syms <+: st'.syms ∧ st'.syms[i]? = some (symOf c) := by
  obtain ⟨o, g1, g2⟩ := Nature.Table.get_ok O.ok (key c)
  cases o with
  | some i =>
    obtain ⟨d, h1, h2, h3⟩ := O.has _ i ((g2 i).1 rfl)
    have := key_inj D hc h1 h2
    subst this
    refine ⟨st, i, ?_, O, List.prefix_refl _, h3⟩
    simp only [symbol, g1, Option.bind_eq_bind, Option.bind_some]
  | none =>
    obtain ⟨t', e1, e2, e3⟩ := Nature.Table.set_ok O.ok (key c) st.syms.length
    refine ⟨⟨t', st.syms ++ [symOf c]⟩, st.syms.length, ?_, ⟨e2, ?_⟩, List.prefix_append _ _, by simp⟩
    · simp only [symbol, g1, e1, Option.bind_eq_bind, Option.bind_some]
    · intro k i hh
      rw [e3] at hh
      split at hh
      · rename_i hk
        subst hh
        exact ⟨c, hc, hk, by simp⟩
      · obtain ⟨d, h1, h2, h3⟩ := O.has k i hh
        refine ⟨d, h1, h2, ?_⟩
        dsimp only
        rw [List.getElem?_append_left (List.getElem?_eq_some_iff.1 h3).1]
        exact h3

theorem lowerConst_ok {A : Const → Prop} (D : Distinct A) {st : St} (O : Ok1 A st) {loc : Nature.Table.T Use} (L : Ok2 A st.syms loc)
    {c : Const} (hc : A c) :
    ∃ st' loc' u, lowerConst st loc c = some (st', loc', u) ∧ Ok1 A st' ∧ st.syms <+: st'.syms ∧ Ok2 A st'.syms loc' ∧ Right st'.syms c u := by
  obtain ⟨st', i, h1, h2, h3, h4⟩ := symbol_ok D O hc
  have L' := L.mono h3
  have num : ∃ loc' u, localVar loc (key c) ⟨i, width c⟩ = some (loc', u) ∧ Ok2 A st'.syms loc' ∧ Right st'.syms c u := by
    obtain ⟨o, g1, g2⟩ := Nature.Table.get_ok L.ok (key c)
    cases o with
    | some u =>
      obtain ⟨d, k1, k2, k3⟩ := L'.has _ u ((g2 u).1 rfl)
      have := key_inj D hc k1 k2
      subst this
      exact ⟨loc, u, by simp only [localVar, g1, Option.bind_eq_bind, Option.bind_some], L', k3⟩
    | none =>
      obtain ⟨t', e1, e2, e3⟩ := Nature.Table.set_ok L.ok (key c) ⟨i, width c⟩
      refine ⟨t', ⟨i, width c⟩, by simp only [localVar, g1, e1, Option.bind_eq_bind, Option.bind_some], ⟨e2, ?_⟩, rfl, h4⟩
      intro k u hh
      rw [e3] at hh
      split at hh
      · rename_i hk
        subst hh
        exact ⟨c, hc, hk, rfl, h4⟩
      · exact L'.has k u hh
  obtain ⟨loc', u, e, k1, k2⟩ := num
  cases c with
  | str s =>
    refine ⟨st', loc, ⟨i, s.length⟩, ?_, h2, h3, L', rfl, h4⟩
    simp only [lowerConst, h1, Option.bind_eq_bind, Option.bind_some, width]
  | f64 b =>
    refine ⟨st', loc', u, ?_, h2, h3, k1, k2⟩
    simp only [lowerConst, h1, e, Option.bind_eq_bind, Option.bind_some]
  | f32 b =>
    refine ⟨st', loc', u, ?_, h2, h3, k1, k2⟩
    simp only [lowerConst, h1, e, Option.bind_eq_bind, Option.bind_some]

/-- All is right. -/
def AllRight (syms : List Sym) (cs : List Const) (us : List Use) : Prop := ∀ (j : Nat) c, cs[j]? = some c → ∃ u, us[j]? = some u ∧ Right syms c u

theorem lowerFn_ok {A : Const → Prop} (D : Distinct A) : ∀ (cs : List Const) (st : St) (loc : Nature.Table.T Use), Ok1 A st → Ok2 A st.syms loc →
    (∀ c ∈ cs, A c) → ∃ st' us, lowerFn cs st loc = some (st', us) ∧ Ok1 A st' ∧ st.syms <+: st'.syms ∧ AllRight st'.syms cs us := by
  intro cs
  induction cs with
  | nil => intro st loc O _ _; exact ⟨st, [], rfl, O, List.prefix_refl _, fun j c h => by simp at h⟩
  | cons c cs ih =>
    intro st loc O L hA
    obtain ⟨st1, loc1, u, h1, h2, h3, h4, h5⟩ := lowerConst_ok D O L (hA c (List.mem_cons_self ..))
    obtain ⟨st2, us, g1, g2, g3, g4⟩ := ih st1 loc1 h2 h4 (fun d hd => hA d (List.mem_cons_of_mem _ hd))
    refine ⟨st2, u :: us, ?_, g2, h3.trans g3, ?_⟩
    · simp only [lowerFn, h1, g1, Option.bind_eq_bind, Option.bind_some]
    · intro j d hd
      cases j with
      | zero => simp at hd; subst hd; exact ⟨u, rfl, h5.mono g3⟩
      | succ j => simp at hd; simpa using g4 j d hd

theorem lowerFns_ok {A : Const → Prop} (D : Distinct A) : ∀ (fs : List (List Const)) (st : St), Ok1 A st → (∀ f ∈ fs, ∀ c ∈ f, A c) →
    ∃ st' uss, lowerFns fs st = some (st', uss) ∧ st.syms <+: st'.syms ∧
      ∀ (i : Nat) f, fs[i]? = some f → ∃ us, uss[i]? = some us ∧ AllRight st'.syms f us := by
  intro fs
  induction fs with
  | nil => intro st _ _; exact ⟨st, [], rfl, List.prefix_refl _, fun i f h => by simp at h⟩
  | cons f fs ih =>
    intro st O hA
    have L : Ok2 A st.syms Nature.Table.new := ⟨Nature.Table.new_ok _, fun k u ⟨j, hj⟩ => by simp [Nature.Table.new] at hj⟩
    obtain ⟨st1, us, h1, h2, h3, h4⟩ := lowerFn_ok D f st _ O L (hA f (List.mem_cons_self ..))
    obtain ⟨st2, uss, g1, g3, g4⟩ := ih st1 h2 (fun d hd => hA d (List.mem_cons_of_mem _ hd))
    refine ⟨st2, us :: uss, ?_, h3.trans g3, ?_⟩
    · simp only [lowerFns, h1, g1, Option.bind_eq_bind, Option.bind_some]
    · intro i d hd
      cases i with
      | zero =>
        simp at hd; subst hd
        refine ⟨us, rfl, fun j c hc => ?_⟩
        obtain ⟨u, k1, k2⟩ := h4 j c hc
        exact ⟨u, k1, k2.mono g3⟩
      | succ i => simp at hd; simpa using g4 i d hd

/-! ### The data section -/

theorem alignUp_ge (n a : Nat) (ha : 0 < a) : n ≤ alignUp n a := by
  unfold alignUp
  have h1 := Nat.div_add_mod (n + a - 1) a
  have h2 := Nat.mod_lt (n + a - 1) ha
  rw [Nat.mul_comm] at h1
  omega

theorem put_ok (data : Bytes) (s : Sym) : data <+: (put data s).1 ∧ ((put data s).1.drop (put data s).2).take s.value.length = s.value ∧
    (put data s).2 + s.value.length ≤ (put data s).1.length ∧ data.length ≤ (put data s).2 := by
  have hge : data.length ≤ alignUp data.length (if s.align = 0 then 1 else s.align) := alignUp_ge _ _ (by split <;> omega)
  unfold put
  dsimp only
  generalize alignUp data.length (if s.align = 0 then 1 else s.align) = off at *
  refine ⟨?_, ?_, ?_, hge⟩
  · rw [List.append_assoc]; exact List.prefix_append _ _
  · rw [List.drop_append, List.drop_of_length_le (by simp; omega)]
    simp [show off - (data.length + (off - data.length)) = 0 by omega]
  · simp; omega

theorem take_prefix {d d' : Bytes} (hp : d <+: d') {off n : Nat} (h : off + n ≤ d.length) : (d'.drop off).take n = (d.drop off).take n := by
  obtain ⟨e, rfl⟩ := hp
  rw [List.drop_append_of_le_length (by omega), List.take_append_of_le_length (by simp; omega)]

/-- Where a symbol is put, its bytes are, and symbols do not overlap. -/
theorem place_ok : ∀ (syms : List Sym) (data : Bytes), data <+: (place syms data).1 ∧ (place syms data).2.length = syms.length ∧
    ∀ (i : Nat) (s : Sym), syms[i]? = some s → ∃ off, (place syms data).2[i]? = some off ∧ ((place syms data).1.drop off).take s.value.length = s.value ∧
      data.length ≤ off ∧ off + s.value.length ≤ (place syms data).1.length ∧
      ∀ (j : Nat) (t : Sym), i < j → syms[j]? = some t → ∃ off', (place syms data).2[j]? = some off' ∧ off + s.value.length ≤ off' := by
  intro syms
  induction syms with
  | nil => intro data; exact ⟨List.prefix_refl _, rfl, fun i s h => by simp at h⟩
  | cons a rest ih =>
    intro data
    obtain ⟨p1, p2, p3, p4⟩ := put_ok data a
    obtain ⟨q1, q2, q3⟩ := ih (put data a).1
    simp only [place]
    refine ⟨p1.trans q1, by simp [q2], ?_⟩
    intro i s hi
    cases i with
    | zero =>
      simp at hi; subst hi
      refine ⟨_, rfl, ?_, p4, ?_, ?_⟩
      · rw [take_prefix q1 p3]; exact p2
      · have := q1.length_le; omega
      · intro j t hj ht
        cases j with
        | zero => omega
        | succ j =>
          simp at ht
          obtain ⟨off', g1, _, g3, _⟩ := q3 j t ht
          exact ⟨off', by simpa using g1, by omega⟩
    | succ i =>
      simp at hi
      obtain ⟨off, g1, g2, g3, g4, g5⟩ := q3 i s hi
      refine ⟨off, by simpa using g1, g2, ?_, g4, ?_⟩
      · have := p1.length_le; omega
      · intro j t hj ht
        cases j with
        | zero => omega
        | succ j =>
          simp at ht
          obtain ⟨off', k1, k2⟩ := g5 j t (by omega) ht
          exact ⟨off', by simpa using k1, k2⟩

theorem le_length : ∀ n x, (le n x).length = n
  | 0, _ => rfl
  | n + 1, x => by simp [le, le_length n]

theorem sym_take (c : Const) : (symOf c).value.take (width c) = bytes c := by
  cases c with
  | str s => simp [symOf, width, bytes]
  | f64 b => simp only [symOf, width, bytes]; rw [List.take_of_length_le]; rw [le_length]; exact Nat.le_refl _
  | f32 b => simp only [symOf, width, bytes]; rw [List.take_of_length_le]; rw [le_length]; exact Nat.le_refl _

theorem width_le (c : Const) : width c ≤ (symOf c).value.length := by
  cases c <;> simp [symOf, width, le_length]

end Nature.Consts
