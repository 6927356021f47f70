import Mathlib.Data.Nat.Bits
import Mathlib.Data.List.Basic
import Mathlib.Tactic.Ring
import Mathlib.Tactic.Linarith

/-!
# Bit lists

Bit sequences, most significant bit first, and their relation to natural numbers.  This is the vocabulary in which
stream contents are described; it has no counterpart in /repo.
-/

namespace Verif

/-- The number a bit list denotes, most significant bit first. -/
def bitsVal : List Bool → Nat
  | [] => 0
  | b :: bs => b.toNat * 2 ^ bs.length + bitsVal bs

/-- The `n` low bits of `v`, most significant bit first. -/
def natBits : Nat → Nat → List Bool
  | 0, _ => []
  | n + 1, v => v.testBit n :: natBits n v

@[simp] theorem natBits_length (n v : Nat) : (natBits n v).length = n := by
  induction n with
  | zero => rfl
  | succ n ih => simp [natBits, ih]

theorem bitsVal_lt (l : List Bool) : bitsVal l < 2 ^ l.length := by
  induction l with
  | nil => simp [bitsVal]
  | cons b bs ih =>
    simp only [bitsVal, List.length_cons, pow_succ]
    cases b <;> simp <;> omega

theorem bitsVal_append (a b : List Bool) : bitsVal (a ++ b) = bitsVal a * 2 ^ b.length + bitsVal b := by
  induction a with
  | nil => simp [bitsVal]
  | cons x xs ih =>
    simp only [List.cons_append, bitsVal, ih, List.length_append, pow_add]
    ring

theorem bitsVal_natBits (n v : Nat) : bitsVal (natBits n v) = v % 2 ^ n := by
  induction n with
  | zero => simp [natBits, bitsVal, Nat.mod_one]
  | succ n ih =>
    simp only [natBits, bitsVal, natBits_length, ih]
    rw [Nat.testBit_eq_decide_div_mod_eq]
    have h := Nat.mod_mul_left_div_self v 2 (2 ^ n)
    have h1 : v % 2 ^ (n + 1) = v % 2 ^ n + 2 ^ n * (v / 2 ^ n % 2) := by
      rw [pow_succ, Nat.mod_mul]
    rw [h1]
    rcases Nat.mod_two_eq_zero_or_one (v / 2 ^ n) with h2 | h2 <;> simp [h2]
    omega

theorem bitsVal_natBits_of_lt {n v : Nat} (h : v < 2 ^ n) : bitsVal (natBits n v) = v := by
  rw [bitsVal_natBits, Nat.mod_eq_of_lt h]

theorem natBits_mod (n v : Nat) {m : Nat} (h : n ≤ m) : natBits n (v % 2 ^ m) = natBits n v := by
  induction n with
  | zero => rfl
  | succ n ih =>
    simp only [natBits, ih (by omega)]
    rw [Nat.testBit_mod_two_pow]
    simp [show n < m by omega]

theorem natBits_add (m n v : Nat) : natBits (m + n) v = natBits m (v / 2 ^ n) ++ natBits n v := by
  induction m with
  | zero => simp [natBits]
  | succ m ih =>
    rw [show m + 1 + n = (m + n) + 1 by omega]
    simp only [natBits, ih, List.cons_append]
    rw [Nat.testBit_div_two_pow]

theorem natBits_inj {n a b : Nat} (ha : a < 2 ^ n) (hb : b < 2 ^ n) (h : natBits n a = natBits n b) : a = b := by
  have := congrArg bitsVal h
  rwa [bitsVal_natBits_of_lt ha, bitsVal_natBits_of_lt hb] at this

theorem natBits_mul_add (n hi lo m : Nat) (hlo : lo < 2 ^ n) :
    natBits (m + n) (hi * 2 ^ n + lo) = natBits m hi ++ natBits n lo := by
  rw [natBits_add]
  congr 1
  · congr 1
    rw [Nat.add_comm, Nat.add_mul_div_right _ _ (Nat.two_pow_pos n), Nat.div_eq_of_lt hlo, Nat.zero_add]
  · rw [← natBits_mod n (hi * 2 ^ n + lo) (Nat.le_refl n), Nat.add_comm, Nat.add_mul_mod_self_right,
      Nat.mod_eq_of_lt hlo]

theorem natBits_bitsVal (l : List Bool) : natBits l.length (bitsVal l) = l := by
  induction l with
  | nil => rfl
  | cons b bs ih =>
    have h := natBits_mul_add bs.length b.toNat (bitsVal bs) 1 (bitsVal_lt bs)
    simp only [bitsVal, List.length_cons]
    rw [Nat.add_comm bs.length 1, h, ih]
    cases b <;> simp [natBits]

theorem bitsVal_inj {a b : List Bool} (hl : a.length = b.length) (h : bitsVal a = bitsVal b) : a = b := by
  rw [← natBits_bitsVal a, ← natBits_bitsVal b, hl, h]

theorem natBits_zero (n : Nat) : natBits n 0 = List.replicate n false := by
  induction n with
  | zero => rfl
  | succ n ih => simp [natBits, ih, List.replicate_succ]

theorem bitsVal_replicate_false (n : Nat) : bitsVal (List.replicate n false) = 0 := by
  rw [← natBits_zero, bitsVal_natBits]; simp

/-- Bits of a sequence of bytes. -/
def bytesBits (bs : List (BitVec 8)) : List Bool := bs.flatMap fun b => natBits 8 b.toNat

@[simp] theorem bytesBits_nil : bytesBits [] = [] := rfl

@[simp] theorem bytesBits_cons (b : BitVec 8) (bs : List (BitVec 8)) :
    bytesBits (b :: bs) = natBits 8 b.toNat ++ bytesBits bs := rfl

@[simp] theorem bytesBits_append (a b : List (BitVec 8)) : bytesBits (a ++ b) = bytesBits a ++ bytesBits b := by
  simp [bytesBits]

@[simp] theorem bytesBits_length (bs : List (BitVec 8)) : (bytesBits bs).length = 8 * bs.length := by
  induction bs with
  | nil => rfl
  | cons b bs ih => simp [ih]; omega

/-- The bytes of a bit list whose length is a multiple of eight (a shorter final group is dropped). -/
def bitsBytes (l : List Bool) : List (BitVec 8) :=
  if l.length < 8 then [] else BitVec.ofNat 8 (bitsVal (l.take 8)) :: bitsBytes (l.drop 8)
termination_by l.length
decreasing_by simp; omega

theorem bitsBytes_append_byte (b : BitVec 8) (rest : List Bool) :
    bitsBytes (natBits 8 b.toNat ++ rest) = b :: bitsBytes rest := by
  rw [bitsBytes]
  have h1 : ¬ (natBits 8 b.toNat ++ rest).length < 8 := by simp
  rw [if_neg h1]
  have h2 : (natBits 8 b.toNat ++ rest).take 8 = natBits 8 b.toNat := by
    rw [List.take_append_of_le_length (by simp)]
    exact List.take_of_length_le (by simp)
  have h3 : (natBits 8 b.toNat ++ rest).drop 8 = rest := by
    rw [List.drop_append_of_le_length (by simp)]
    rw [List.drop_of_length_le (by simp)]; rfl
  rw [h2, h3, bitsVal_natBits]
  congr 1
  apply BitVec.eq_of_toNat_eq
  have := b.isLt
  simp; omega

theorem bitsBytes_bytesBits (bs : List (BitVec 8)) : bitsBytes (bytesBits bs) = bs := by
  induction bs with
  | nil => rw [bytesBits_nil, bitsBytes]; rfl
  | cons b bs ih => rw [bytesBits_cons, bitsBytes_append_byte, ih]

theorem bytesBits_bitsBytes (l : List Bool) (h : 8 ∣ l.length) : bytesBits (bitsBytes l) = l := by
  rw [bitsBytes]
  split
  · rename_i hl
    have : l.length = 0 := by omega
    rw [List.length_eq_zero_iff] at this
    simp [this]
  · rename_i hl
    have hd : 8 ∣ (l.drop 8).length := by simp; omega
    rw [bytesBits_cons, bytesBits_bitsBytes _ hd]
    have h8 : (l.take 8).length = 8 := by simp; omega
    have hb := bitsVal_lt (l.take 8)
    rw [h8] at hb
    have : (BitVec.ofNat 8 (bitsVal (l.take 8))).toNat = bitsVal (l.take 8) := by
      simp only [BitVec.toNat_ofNat]; exact Nat.mod_eq_of_lt hb
    rw [this]
    have := natBits_bitsVal (l.take 8)
    rw [h8] at this
    rw [this, List.take_append_drop]
termination_by l.length
decreasing_by simp; omega

theorem bytesBits_inj {a b : List (BitVec 8)} (h : bytesBits a = bytesBits b) : a = b := by
  rw [← bitsBytes_bytesBits a, ← bitsBytes_bytesBits b, h]

end Verif
