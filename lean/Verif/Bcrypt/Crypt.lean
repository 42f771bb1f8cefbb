import Verif.Bcrypt.Radix
import Verif.Blowfish.Props

/-! # The function `bcrypt` of the model is the one of the specification -/

namespace Nature.Bcrypt

open Nature.Blowfish (W B Cipher Tables rd wr Sized flat)
open Nature.Blowfish.Spec (word bytes encipher)
open Spec (radix64 times)

/-- The tables have the sizes they have in the code, blowfish.n:22-213. -/
structure TablesOk (t : Tables) : Prop where
  p : t.p.length = 18
  s0 : 256 ≤ t.s0.length
  s1 : 256 ≤ t.s1.length
  s2 : 256 ≤ t.s2.length
  s3 : 256 ≤ t.s3.length

/-- The initial state of the specification that the tables stand for. -/
def init (t : Tables) : List W :=
  t.p ++ (t.s0.take 256 ++ (t.s1.take 256 ++ (t.s2.take 256 ++ t.s3.take 256)))

theorem costRounds_eq {key salt : List B} (hk : 1 ≤ key.length) (hs : 1 ≤ salt.length) (n : Nat) :
    ∀ c, Sized c → ∃ c', costRounds key salt n c = some c' ∧ Sized c' ∧
      flat c' = times (fun T => Blowfish.Spec.expand (Blowfish.Spec.expand T key) salt) n (flat c) := by
  induction n with
  | zero => intro c h; exact ⟨c, rfl, h, rfl⟩
  | succ n ih =>
    intro c h
    obtain ⟨c1, e1, z1, f1⟩ := Blowfish.C105_expand c h key hk
    obtain ⟨c2, e2, z2, f2⟩ := Blowfish.C105_expand c1 z1 salt hs
    obtain ⟨c3, e3, z3, f3⟩ := ih c2 z2
    refine ⟨c3, ?_, z3, ?_⟩
    · simp only [costRounds, e1, e2, e3]
    · rw [f3, f2, f1]
      simp only [times]

theorem one_shift {n : Nat} (h : n ≤ 31) : (1#64 <<< n).toNat = 2 ^ n := by
  rw [BitVec.toNat_shiftLeft, BitVec.toNat_ofNat, Nat.shiftLeft_eq]
  have : 2 ^ n ≤ 2 ^ 31 := Nat.pow_le_pow_right (by decide) h
  rw [show 1 % 2 ^ 64 = 1 from rfl, Nat.one_mul]
  exact Nat.mod_eq_of_lt (by omega)

theorem setup_eq {t : Tables} (ht : TablesOk t) (key salt : List B) (hs : 1 ≤ salt.length)
    {text : List B} (hd : decode text = .ok salt) {cost : Nat} (hc : cost ≤ 31) :
    ∃ c, setup t key cost text = .ok c ∧ Sized c ∧
      flat c = Spec.setup (init t) cost salt (key ++ [0]) := by
  obtain ⟨c, e, z, f⟩ := (Blowfish.C105_salted t ht.p ht.s0 ht.s1 ht.s2 ht.s3 (key ++ [0]) salt
    hs).1 (by simp)
  obtain ⟨c', e', z', f'⟩ := costRounds_eq (key := key ++ [0]) (by simp) hs (2 ^ cost) c z
  refine ⟨c', ?_, z', ?_⟩
  · simp only [setup, hd, bind_ok, e, one_shift hc, e']
  · rw [f', f]; simp only [Spec.setup, init]

/-! ## The 64 encryptions -/

theorem readBlock_eq (x y : List B) (b0 b1 b2 b3 b4 b5 b6 b7 : B) {i : Nat} (hx : x.length = i) :
    readBlock (x ++ ([b0, b1, b2, b3, b4, b5, b6, b7] ++ y)) i
      = some [b0, b1, b2, b3, b4, b5, b6, b7] := by
  subst hx
  simp [readBlock, rd, List.getElem?_append_right]

theorem writeBlock_eq (x y : List B) (a0 a1 a2 a3 a4 a5 a6 a7 b0 b1 b2 b3 b4 b5 b6 b7 : B)
    {i : Nat} (hx : x.length = i) :
    writeBlock (x ++ ([a0, a1, a2, a3, a4, a5, a6, a7] ++ y)) i [b0, b1, b2, b3, b4, b5, b6, b7]
      = some (x ++ ([b0, b1, b2, b3, b4, b5, b6, b7] ++ y)) := by
  subst hx
  have hr : List.range 8 = [0, 1, 2, 3, 4, 5, 6, 7] := rfl
  simp [writeBlock, hr, rd, wr, List.set_append_right]

theorem bytes_cons (w : W) : ∃ a b c d, bytes w = [a, b, c, d] := ⟨_, _, _, _, rfl⟩

theorem encrypt_words {c : Cipher} (h : Sized c) (l r : W) :
    Blowfish.encrypt c [0, 0, 0, 0, 0, 0, 0, 0] (bytes l ++ bytes r)
      = some (bytes (encipher (flat c) (l, r)).1 ++ bytes (encipher (flat c) (l, r)).2) := by
  have := Blowfish.C105_encrypt c h [0, 0, 0, 0, 0, 0, 0, 0] rfl
    (BitVec.ofNat 8 (l.toNat / 2 ^ 24)) (BitVec.ofNat 8 (l.toNat / 2 ^ 16))
    (BitVec.ofNat 8 (l.toNat / 2 ^ 8)) (BitVec.ofNat 8 l.toNat)
    (BitVec.ofNat 8 (r.toNat / 2 ^ 24)) (BitVec.ofNat 8 (r.toNat / 2 ^ 16))
    (BitVec.ofNat 8 (r.toNat / 2 ^ 8)) (BitVec.ofNat 8 r.toNat)
  rw [Blowfish.word_bytes, Blowfish.word_bytes] at this
  exact this

theorem cryptStep_eq {c : Cipher} (h : Sized c) (x y : List B) (l r : W) {i : Nat}
    (hx : x.length = i) :
    cryptStep c i (x ++ ((bytes l ++ bytes r) ++ y))
      = some (x ++ ((bytes (encipher (flat c) (l, r)).1 ++ bytes (encipher (flat c) (l, r)).2) ++ y)) := by
  have he := encrypt_words h l r
  generalize encipher (flat c) (l, r) = q at he ⊢
  obtain ⟨a0, a1, a2, a3, ha⟩ := bytes_cons l
  obtain ⟨a4, a5, a6, a7, ha'⟩ := bytes_cons r
  obtain ⟨b0, b1, b2, b3, hb⟩ := bytes_cons q.1
  obtain ⟨b4, b5, b6, b7, hb'⟩ := bytes_cons q.2
  rw [ha, ha', hb, hb'] at he
  rw [ha, ha', hb, hb']
  simp only [List.cons_append, List.nil_append] at he
  have h1 := readBlock_eq x y a0 a1 a2 a3 a4 a5 a6 a7 hx
  have h2 := writeBlock_eq x y a0 a1 a2 a3 a4 a5 a6 a7 b0 b1 b2 b3 b4 b5 b6 b7 hx
  simp only [List.cons_append, List.nil_append] at h1 h2
  simp only [cryptStep, List.cons_append, List.nil_append, h1, he, h2, Option.bind_eq_bind,
    Option.bind_some]

theorem cryptBlock_eq {c : Cipher} (h : Sized c) (x y : List B) {i : Nat} (hx : x.length = i)
    (n : Nat) : ∀ l r, cryptBlock c i n (x ++ ((bytes l ++ bytes r) ++ y))
      = some (x ++ ((bytes (times (encipher (flat c)) n (l, r)).1 ++
          bytes (times (encipher (flat c)) n (l, r)).2) ++ y)) := by
  induction n with
  | zero => intro l r; rfl
  | succ n ih =>
    intro l r
    simp only [cryptBlock, cryptStep_eq h x y l r hx, times]
    exact ih _ _

theorem magic_eq : magic = [] ++ ((bytes 0x4f727068#32 ++ bytes 0x65616e42#32) ++
    (bytes 0x65686f6c#32 ++ bytes 0x64657253#32 ++ (bytes 0x63727944#32 ++ bytes 0x6f756274#32))) := by
  decide +kernel

theorem bytes_length (w : W) : (bytes w).length = 4 := rfl

theorem cryptAll_eq {c : Cipher} (h : Sized c) :
    cryptAll c magic = some
      (bytes (times (encipher (flat c)) 64 (0x4f727068#32, 0x65616e42#32)).1 ++
       bytes (times (encipher (flat c)) 64 (0x4f727068#32, 0x65616e42#32)).2 ++
       bytes (times (encipher (flat c)) 64 (0x65686f6c#32, 0x64657253#32)).1 ++
       bytes (times (encipher (flat c)) 64 (0x65686f6c#32, 0x64657253#32)).2 ++
       bytes (times (encipher (flat c)) 64 (0x63727944#32, 0x6f756274#32)).1 ++
       bytes (times (encipher (flat c)) 64 (0x63727944#32, 0x6f756274#32)).2) := by
  have h1 := cryptBlock_eq h [] (bytes 0x65686f6c#32 ++ bytes 0x64657253#32 ++
    (bytes 0x63727944#32 ++ bytes 0x6f756274#32)) (i := 0) rfl 64 0x4f727068#32 0x65616e42#32
  rw [← magic_eq] at h1
  generalize times (encipher (flat c)) 64 (0x4f727068#32, 0x65616e42#32) = p at h1 ⊢
  have h2 := cryptBlock_eq h (bytes p.1 ++ bytes p.2) (bytes 0x63727944#32 ++ bytes 0x6f756274#32)
    (i := 8) (by simp [bytes_length]) 64 0x65686f6c#32 0x64657253#32
  generalize times (encipher (flat c)) 64 (0x65686f6c#32, 0x64657253#32) = q at h2 ⊢
  have h3 := cryptBlock_eq h (bytes p.1 ++ bytes p.2 ++ (bytes q.1 ++ bytes q.2)) []
    (i := 16) (by simp [bytes_length]) 64 0x63727944#32 0x6f756274#32
  generalize times (encipher (flat c)) 64 (0x63727944#32, 0x6f756274#32) = r at h3 ⊢
  simp only [List.append_assoc, List.append_nil, List.nil_append] at h1 h2 h3 ⊢
  simp only [cryptAll, h1, h2, h3, Option.bind_eq_bind, Option.bind_some]

theorem bcrypt_eq {t : Tables} (ht : TablesOk t) (password salt : List B) (hs : 1 ≤ salt.length)
    {text : List B} (hd : decode text = .ok salt) {cost : Nat} (hc : cost ≤ 31) :
    bcrypt t password cost text = .ok (radix64 (Spec.digest (init t) cost salt password)) := by
  obtain ⟨c, e, z, f⟩ := setup_eq ht password salt hs hd hc
  simp only [bcrypt, Int.toNat_natCast, e, bind_ok, cryptAll_eq z, encode_eq, f, Spec.digest]

theorem digest_length (T : List W) (cost : Nat) (salt password : List B) :
    (Spec.digest T cost salt password).length = 23 := by
  simp [Spec.digest, bytes_length]

end Nature.Bcrypt
