import Verif.Wire
import Verif.SchemaAccept

/-!
# The builtin writers against the wire format
-/

namespace Verif.Wire

theorem msb_eq (n v : Nat) : msb n v = natBits n v := by
  induction n with
  | zero => rfl
  | succ n ih =>
    unfold msb at *
    rw [List.range_succ_eq_map, List.map_cons, List.map_map, natBits, ← ih]
    simp only [Nat.add_sub_cancel, Nat.sub_zero, List.cons.injEq, true_and]
    apply List.map_congr_left
    intro i _
    show v.testBit (n - Nat.succ i) = _
    congr 1
    omega

@[simp] theorem msb_length (n v : Nat) : (msb n v).length = n := by rw [msb_eq, natBits_length]

theorem msb_take (a b v : Nat) : (msb (a + b) v).take a = msb a (v / 2 ^ b) := by
  rw [msb_eq, msb_eq, natBits_add, List.take_append_of_le_length (by simp), List.take_of_length_le (by simp)]

theorem msb_drop (a b v : Nat) : (msb (a + b) v).drop a = msb b v := by
  rw [msb_eq, msb_eq, natBits_add, List.drop_append_of_le_length (by simp), List.drop_of_length_le (by simp)]
  rfl

/-- A byte with its top bit apart. -/
theorem byte_top (b : Bool) (x n : Nat) :
    natBits (n + 1) ((if b then 2 ^ n else 0) + x % 2 ^ n) = b :: natBits n x := by
  have hlt := Nat.mod_lt x (Nat.two_pow_pos n)
  have h2 : ∀ y < 2 ^ n, natBits (n + 1) ((if b then 2 ^ n else 0) + y) = b :: natBits n y := by
    intro y hy
    simp only [natBits]
    have e1 : ((if b then 2 ^ n else 0) + y).testBit n = b := by
      cases b
      · simp [Nat.testBit_lt_two_pow hy]
      · simp only [if_true]
        rw [Nat.testBit_two_pow_add_eq, Nat.testBit_lt_two_pow hy]; rfl
    have e2 : natBits n ((if b then 2 ^ n else 0) + y) = natBits n y := by
      apply natBits_congr
      cases b <;> simp
    rw [e1, e2]
  rw [h2 _ hlt, natBits_mod n x (Nat.le_refl n)]

/-! ## Variable-length integers -/

theorem tailVal_mid (v m n i : Nat) (h : i + 1 < n) :
    tailVal v m n i = 2 ^ 7 + v / 2 ^ (7 * (n - (i + 1)) + if n = m then 1 else 0) % 2 ^ 7 := by
  unfold tailVal shBits
  rw [if_pos h, if_pos h, if_neg (show ¬ (i + 1 = n ∧ n = m) by omega)]
  rfl

theorem tailVal_last (v m i : Nat) : tailVal v m (i + 1) i = v % (if i + 1 = m then 2 ^ 8 else 2 ^ 7) := by
  unfold tailVal shBits
  simp

theorem groups_tail (v m n : Nat) (k i : Nat) (hk : 1 ≤ k) (hi : i + k = n) :
    groups (decide (n = m)) k 7 (msb (7 * k + if n = m then 1 else 0) v) = outFrom (tailVal v m n) i k := by
  induction k generalizing i with
  | zero => omega
  | succ k ih =>
    cases k with
    | zero =>
      simp only [groups, outFrom, List.append_nil]
      obtain rfl : n = i + 1 := by omega
      rw [tailVal_last]
      by_cases hm : i + 1 = m
      · simp only [hm, decide_true, if_true]
        rw [msb_eq, natBits_mod 8 v (Nat.le_refl 8)]
      · simp only [hm, decide_false, if_false, Bool.false_eq_true]
        have := byte_top false v 7
        simp only [Bool.false_eq_true, if_false, Nat.zero_add] at this
        rw [this, msb_eq]
    | succ k =>
      rw [outFrom, ← ih (i + 1) (by omega) (by omega), tailVal_mid v m n i (by omega)]
      simp only [groups]
      have e : 7 * (k + 1 + 1) + (if n = m then 1 else 0) = 7 + (7 * (k + 1) + if n = m then 1 else 0) := by omega
      rw [e, msb_take, msb_drop]
      have := byte_top true (v / 2 ^ (7 * (n - (i + 1)) + if n = m then 1 else 0)) 7
      simp only [if_true] at this
      rw [this, msb_eq, show n - (i + 1) = k + 1 by omega]

theorem shortest_eq {signed : Bool} {m v j : Nat} (h1 : 1 ≤ j) (h2 : j ≤ m) (h3 : v < 2 ^ room signed m j)
    (h4 : ∀ i, 1 ≤ i → i < j → ¬ v < 2 ^ room signed m i) : shortest signed m v = some j := by
  unfold shortest
  rw [List.find?_eq_some_iff_append]
  refine ⟨by simpa using h3, (List.range (j - 1)).map (· + 1), ((List.range' j (m - j))).map (· + 1), ?_, ?_⟩
  · have : List.range m = List.range (j - 1) ++ (j - 1) :: List.range' j (m - j) := by
      rw [List.range_eq_range', List.range_eq_range']
      have := List.range'_append_1 (s := 0) (m := j - 1) (n := m - (j - 1))
      rw [show j - 1 + (m - (j - 1)) = m by omega] at this
      rw [← this, show m - (j - 1) = (m - j) + 1 by omega, List.range'_succ]
      simp only [Nat.zero_add]
      rw [show j - 1 + 1 = j by omega]
    rw [this, List.map_append, List.map_cons, show j - 1 + 1 = j by omega]
  · intro a ha
    simp only [List.mem_map, List.mem_range] at ha
    obtain ⟨b, hb, rfl⟩ := ha
    simpa using h4 (b + 1) (by omega) (by omega)

theorem shortest_some {signed : Bool} {m v j : Nat} (h : shortest signed m v = some j) :
    1 ≤ j ∧ j ≤ m ∧ v < 2 ^ room signed m j := by
  unfold shortest at h
  have h1 := List.find?_some h
  have h2 := List.mem_of_find?_eq_some h
  simp only [List.mem_map, List.mem_range] at h2
  obtain ⟨b, hb, rfl⟩ := h2
  exact ⟨by omega, by omega, by simpa using h1⟩

theorem room_u (m k : Nat) : room false m k = uCap m k := by
  unfold room uCap; split <;> simp

theorem room_s (m k : Nat) (_hk : 1 ≤ k) : room true m k = sCap m k := by
  unfold room sCap; split <;> simp

theorem uvar_writes {v : BitVec 64} {m : Nat} (h2 : 2 ≤ m) (hm9 : m ≤ 9) {out : List Bool} (h : uvar m v.toNat = some out)
    (s : List Bool) : Writes (writeVarUint v m) s out := by
  unfold uvar at h
  rw [Option.map_eq_some_iff] at h
  obtain ⟨j, hj, rfl⟩ := h
  obtain ⟨hj1, hjm, hjv⟩ := shortest_some hj
  rcases unsignedBitSize_spec v m h2 hm9 with ⟨i, hi1, him, he, hlt, hmin⟩ | ⟨_, hbig⟩
  · have := shortest_eq (signed := false) hi1 him (by rw [room_u]; exact hlt)
      (fun a ha hb => by rw [room_u]; have := hmin a ha hb; omega)
    rw [this] at hj
    injection hj with hj
    subst hj
    have hw := writeVarUint_writes he s
    rw [← groups_tail v.toNat m i i 0 hi1 (by omega)] at hw
    rw [room_u]
    unfold uCap
    by_cases hm : i = m
    · rw [if_pos hm] at hw ⊢; exact hw
    · rw [if_neg hm] at hw ⊢; exact hw
  · exfalso
    rw [room_u] at hjv
    have := Nat.pow_le_pow_right (n := 2) (by omega) (uCap_mono hjm (Nat.le_refl m))
    omega

theorem groups_head (neg : Bool) (v m n : Nat) (hn : 1 ≤ n) (hm : 2 ≤ m) :
    neg :: groups (decide (n = m)) n 6 (msb (room true m n) v) =
      natBits 8 (headVal neg v m n) ++ outFrom (tailVal v m n) 1 (n - 1) := by
  have hb : ∀ c : Bool, ∀ x, natBits 8 ((if neg then 128 else 0) + (if c then 64 else 0) + x % 64) = neg :: c :: natBits 6 x := by
    intro c x
    have h1 := byte_top c x 6
    have h2 := byte_top neg ((if c then 2 ^ 6 else 0) + x % 2 ^ 6) 7
    rw [Nat.mod_eq_of_lt (by split <;> omega), h1] at h2
    rw [← h2]
    congr 1
    have : (2 : Nat) ^ 7 = 128 := rfl
    have : (2 : Nat) ^ 6 = 64 := rfl
    simp only [*]
    omega
  obtain ⟨k, rfl⟩ : ∃ k, n = k + 1 := ⟨n - 1, by omega⟩
  unfold headVal
  cases k with
  | zero =>
    have hne : ¬ 1 = m := by omega
    unfold room shBits
    simp only [Nat.zero_add, hne, decide_false, if_false, groups, Nat.lt_irrefl, Nat.sub_self, outFrom, Bool.false_eq_true,
      if_true, List.append_nil, Nat.pow_zero, Nat.div_one]
    have := hb false v
    simp only [Bool.false_eq_true, if_false] at this
    rw [this, msb_eq]
  | succ k =>
    have e : room true m (k + 1 + 1) = 6 + (7 * (k + 1) + if k + 1 + 1 = m then 1 else 0) := by
      unfold room; simp only [if_true]; omega
    rw [e]
    simp only [groups]
    rw [msb_take, msb_drop, show k + 1 + 1 - 1 = k + 1 by omega, groups_tail v m (k + 1 + 1) (k + 1) 1 (by omega) (by omega)]
    rw [if_pos (show 1 < k + 1 + 1 by omega)]
    unfold shBits
    rw [if_pos (show 1 < k + 1 + 1 by omega), show k + 1 + 1 - 1 = k + 1 by omega]
    have := hb true (v / 2 ^ (7 * (k + 1) + if k + 1 + 1 = m then 1 else 0))
    simp only [if_true] at this
    rw [this, msb_eq]
    rfl

theorem slt_zero (v : BitVec 64) : v.slt 0#64 = decide (v.toInt < 0) := by
  rw [BitVec.slt_eq_decide]; rfl

theorem svar_writes {v : BitVec 64} {m : Nat} (h2 : 2 ≤ m) (hm9 : m ≤ 9) (hv : v ≠ minInt64) {out : List Bool}
    (h : svar m v.toInt = some out) (s : List Bool) : Writes (writeVarInt v m) s out := by
  have habs : (goAbs v).toNat = v.toInt.natAbs := by
    have := goAbs_toNat hv
    rw [Int.abs_eq_natAbs] at this
    exact_mod_cast this
  unfold svar at h
  rw [Option.map_eq_some_iff] at h
  obtain ⟨j, hj, rfl⟩ := h
  rw [← habs] at hj ⊢
  obtain ⟨hj1, hjm, hjv⟩ := shortest_some hj
  rcases signedBitSize_spec v (goAbs_lt hv) m h2 hm9 with ⟨i, hi1, him, he, hlt, hmin⟩ | ⟨_, hbig⟩
  · have := shortest_eq (signed := true) hi1 him (by rw [room_s _ _ hi1]; exact hlt)
      (fun a ha hb => by rw [room_s _ _ ha]; have := hmin a ha hb; omega)
    rw [this] at hj
    injection hj with hj
    subst hj
    have hw := writeVarInt_writes h2 hi1 he s
    rw [← groups_head _ _ _ _ hi1 h2, slt_zero] at hw
    exact hw
  · exfalso
    rw [room_s _ _ hj1] at hjv
    have := Nat.pow_le_pow_right (n := 2) (by omega) (sCap_mono hjm (Nat.le_refl m))
    omega

theorem svar_min (m : Nat) (hm : m ≤ 9) : svar m (-2 ^ 63) = none := by
  unfold svar
  rw [Option.map_eq_none_iff]
  unfold shortest
  rw [List.find?_eq_none]
  intro k hk
  simp only [List.mem_map, List.mem_range] at hk
  obtain ⟨b, hb, rfl⟩ := hk
  simp only [decide_eq_true_eq, not_lt]
  refine Nat.le_trans (Nat.pow_le_pow_right (j := 63) (by omega) ?_) (by decide)
  unfold room
  simp only [if_true]
  split <;> omega

/-- Writing with `writeVarInt` itself. -/
theorem svar_writes' {v : BitVec 64} {m : Nat} (h2 : 2 ≤ m) (hm9 : m ≤ 9) {out : List Bool}
    (h : svar m v.toInt = some out) (s : List Bool) : Writes (writeVarInt v m) s out := by
  refine svar_writes h2 hm9 ?_ h s
  rintro rfl
  have : (minInt64 : BitVec 64).toInt = -2 ^ 63 := by decide
  rw [this, svar_min m hm9] at h
  cases h

theorem varsize_writes {n : Nat} {out : List Bool} (h : varsize n = some out) (s : List Bool) :
    Writes (writeVarsize (BitVec.ofNat 64 n)) s out := by
  unfold varsize at h
  split at h
  · rename_i hn
    have e : (BitVec.ofNat 64 n).toNat = n := ofNat64_toNat (by omega)
    unfold writeVarsize
    rw [if_neg]
    · exact uvar_writes (by omega) (by omega) (by rw [e]; exact h) s
    · rw [gt_iff_lt, BitVec.lt_def, e]
      have : (BitVec.ofNat 64 maxVarsize).toNat = 2 ^ 31 - 1 := by decide
      omega
  · cases h

theorem varsize_writes' {v : BitVec 64} {out : List Bool} (h : varsize v.toNat = some out) (s : List Bool) :
    Writes (writeVarsize v) s out := by
  have := varsize_writes h s
  rwa [BitVec.ofNat_toNat, BitVec.setWidth_eq] at this

/-! ## Half precision -/

/-- Subnormal halves, for all significands and both signs. -/
theorem f32to16_sub : ∀ s : Fin 2, ∀ e : Fin 10, ∀ q : Fin 512, q.val < 2 ^ e.val →
    (f32to16 (BitVec.ofNat 32 (s.val * 2 ^ 31 + (103 + e.val) * 2 ^ 23 + q.val * 2 ^ (23 - e.val)))).toNat =
      s.val * 2 ^ 15 + (2 ^ e.val + q.val) := by
  decide +kernel

theorem f32to16_zero : ∀ s : Fin 2, (f32to16 (BitVec.ofNat 32 (s.val * 2 ^ 31))).toNat = s.val * 2 ^ 15 := by
  decide +kernel

theorem half_eq {x : BitVec 32} {h : Nat} (hh : half x.toNat = some h) : (f32to16 x).toNat = h := by
  have hx := x.isLt
  obtain ⟨s, e, c, hs, he, hc, hxe⟩ : ∃ s e c, s < 2 ∧ e < 256 ∧ c < 2 ^ 23 ∧ x.toNat = s * 2 ^ 31 + e * 2 ^ 23 + c :=
    ⟨x.toNat / 2 ^ 31, x.toNat / 2 ^ 23 % 256, x.toNat % 2 ^ 23, by omega, by omega, by omega, by omega⟩
  have e1 : x.toNat / 2 ^ 31 = s := by omega
  have e2 : x.toNat / 2 ^ 23 % 256 = e := by omega
  have e3 : x.toNat % 2 ^ 23 = c := by omega
  have hxo : x = BitVec.ofNat 32 (s * 2 ^ 31 + e * 2 ^ 23 + c) := by
    rw [← hxe, BitVec.ofNat_toNat, BitVec.setWidth_eq]
  unfold half at hh
  simp only [e1, e2, e3] at hh
  split at hh
  · rename_i h0
    injection hh with hh
    subst hh
    have := f32to16_zero ⟨s, hs⟩
    rw [hxo, h0.1, h0.2]
    simpa using this
  split at hh
  · rename_i h0
    injection hh with hh
    subst hh
    obtain ⟨i, rfl⟩ : ∃ i, e = 103 + i := ⟨e - 103, by omega⟩
    rw [show 126 - (103 + i) = 23 - i by omega] at h0 ⊢
    obtain ⟨q, rfl⟩ : ∃ q, c = q * 2 ^ (23 - i) := ⟨c / 2 ^ (23 - i), by
      rw [Nat.div_mul_cancel (Nat.dvd_of_mod_eq_zero h0.2.2)]⟩
    have hp : (2 : Nat) ^ i * 2 ^ (23 - i) = 2 ^ 23 := by rw [← Nat.pow_add, show i + (23 - i) = 23 by omega]
    have hq : q < 2 ^ i := by
      rw [← hp] at hc
      exact Nat.lt_of_mul_lt_mul_right hc
    have hi9 : (2 : Nat) ^ i ≤ 2 ^ 9 := Nat.pow_le_pow_right (by omega) (by omega)
    have := f32to16_sub ⟨s, hs⟩ ⟨i, by omega⟩ ⟨q, by omega⟩ hq
    rw [hxo]
    simp only at this
    rw [this, ← hp, ← Nat.add_mul, Nat.mul_div_cancel _ (Nat.two_pow_pos _)]
  rename_i hneg
  clear hneg hxo e1 e2 e3 hx
  generalize hX : x.toNat = X at hxe
  split at hh
  · rename_i h0
    injection hh with hh
    subst hh
    have hu : X = s * 2147483648 + (e - 112 + 112) * 8388608 + c / 8192 * 8192 := by
      rw [hxe, show e - 112 + 112 = e by omega, show c / 8192 * 8192 = c by omega]
      norm_num
    have := f32to16_normal (u := x) (s := s) (e := e - 112) (c := c / 8192) hs (by omega) (by omega) (by omega) (hX.trans hu)
    rw [this]
    norm_num
  split at hh
  · rename_i h0
    injection hh with hh
    subst hh
    have hu : X = s * 2147483648 + 255 * 8388608 + 0 * 8192 := by rw [hxe, h0.1, h0.2]; norm_num
    have := f32to16_special (u := x) (s := s) (c := 0) hs (by omega) (hX.trans hu)
    rw [if_pos rfl] at this
    rw [this]
    norm_num
  split at hh
  · rename_i h0
    injection hh with hh
    subst hh
    have hu : X = s * 2147483648 + 255 * 8388608 + c / 8192 * 8192 := by
      rw [hxe, h0.1, show c / 8192 * 8192 = c by omega]
      norm_num
    have := f32to16_special (u := x) (s := s) (c := c / 8192) hs (by omega) (hX.trans hu)
    rw [if_neg (by omega)] at this
    have hor : c / 8192 ||| 512 = c / 8192 := by
      apply Nat.eq_of_testBit_eq
      intro i
      rw [Nat.testBit_or, show (512 : Nat) = 2 ^ 9 from rfl, Nat.testBit_two_pow]
      by_cases hi : 9 = i
      · subst hi
        have : (c / 8192).testBit 9 = true := by
          have := testBit_top (a := c / 8192) (n := 10) (by omega) (by omega)
          rw [this]
          simp only [decide_eq_true_eq]
          omega
        rw [this]; rfl
      · simp [hi]
    rw [hor] at this
    rw [this]
    norm_num
  · cases hh

/-! ## Builtin values -/

theorem octets_eq (bs : List Byte) : octets bs = bytesBits bs := by
  unfold octets bytesBits
  congr 1

theorem twos_eq {w n : Nat} (x : BitVec w) (hn : n ≤ 64) (hw : w ≤ 64) : twos n x.toInt = natBits n (x.signExtend 64).toNat := by
  unfold twos
  rw [msb_eq]
  apply natBits_congr
  have h1 : ((x.signExtend 64).toNat : Int) % 2 ^ n = x.toInt % 2 ^ n := by
    have := BitVec.toInt_signExtend_of_le (x := x) hw
    rw [← this, BitVec.toInt_eq_toNat_cond]
    split
    · rfl
    · have hd : ((2 ^ 64 : Nat) : Int) = 2 ^ n * 2 ^ (64 - n) := by
        rw [← pow_add, show n + (64 - n) = 64 by omega]; norm_num
      rw [hd, Int.sub_mul_emod_self_left]
  have h2 : ((x.toInt % 2 ^ n).toNat : Int) = x.toInt % 2 ^ n := Int.toNat_of_nonneg (Int.emod_nonneg _ (by positivity))
  have h3 : (((x.toInt % 2 ^ n).toNat % 2 ^ n : Nat) : Int) = ((x.signExtend 64).toNat % 2 ^ n : Nat) := by
    push_cast
    rw [h2, h1, Int.emod_emod]
  exact_mod_cast h3

theorem toNat_setWidth64 {w : Nat} (hw : w ≤ 64) (x : BitVec w) : (x.setWidth 64).toNat = x.toNat := by
  rw [BitVec.toNat_setWidth]
  have := x.isLt
  have : (2 : Nat) ^ w ≤ 2 ^ 64 := Nat.pow_le_pow_right (by omega) hw
  exact Nat.mod_eq_of_lt (by omega)

theorem string_writes {b : List Byte} {out : List Bool} (h : (varsize b.length).map (· ++ octets b) = some out)
    (s : List Bool) : Writes (writeString b) s out := by
  rw [Option.map_eq_some_iff] at h
  obtain ⟨a, ha, rfl⟩ := h
  exact (varsize_writes ha s).bind (by rw [octets_eq]; exact wrun_bytes _ _)

theorem bytes_writes {b : BytesV} (hb : b.byteSize.toNat = b.buffer.length) {out : List Bool}
    (h : (varsize b.buffer.length).map (· ++ octets b.buffer) = some out) (s : List Bool) :
    Writes (writeBytes b) s out := by
  rw [Option.map_eq_some_iff] at h
  obtain ⟨a, ha, rfl⟩ := h
  rw [← hb] at ha
  exact (varsize_writes' ha s).bind (by rw [octets_eq]; exact wrun_bytes _ _)

theorem extern_writes {e : ExternV} (hlen : e.buffer.length = (e.bitSize.toNat + 7) / 8) {out : List Bool}
    (h : (varsize e.bitSize.toNat).map (· ++ (octets e.buffer).take e.bitSize.toNat) = some out) (s : List Bool) :
    Writes (writeExtern e) s out := by
  rw [Option.map_eq_some_iff] at h
  obtain ⟨a, ha, rfl⟩ := h
  refine (varsize_writes' ha s).bind ?_
  rw [octets_eq]
  unfold Writes
  dsimp only
  by_cases h0 : e.bitSize.toNat % 8 = 0
  · rw [if_neg (by omega), wrun_bind, wrun_bytes]
    dsimp only
    rw [if_neg (by omega), wrun_pure, List.take_of_length_le (by omega),
      List.take_of_length_le (by rw [bytesBits_length]; omega)]
  · obtain ⟨full, last, hb⟩ : ∃ full last, e.buffer = full ++ [last] := by
      have hne : e.buffer ≠ [] := by intro hn; rw [hn] at hlen; simp at hlen; omega
      exact ⟨_, _, (List.dropLast_append_getLast hne).symm⟩
    have hfl : full.length = e.bitSize.toNat / 8 := by
      rw [hb, List.length_append, List.length_singleton] at hlen; omega
    have hlast : e.buffer.getLast? = some last := by rw [hb]; simp
    rw [if_neg (by omega), wrun_bind, wrun_bytes]
    dsimp only
    rw [if_pos h0, hlast]
    dsimp only
    rw [wrun_bits, hb, List.take_append_of_le_length (by omega), List.take_of_length_le (by omega), bytesBits_append,
      List.append_assoc]
    congr 3
    have hsh : (last.setWidth 64 >>> (8 - e.bitSize.toNat % 8)).toNat = last.toNat / 2 ^ (8 - e.bitSize.toNat % 8) := by
      rw [BitVec.toNat_ushiftRight, Nat.shiftRight_eq_div_pow]
      rw [toNat_setWidth64 (by omega)]
    have hl : (bytesBits full).length = 8 * (e.bitSize.toNat / 8) := by rw [bytesBits_length, hfl]
    rw [List.take_append, hl, List.take_of_length_le (by omega)]
    congr 1
    rw [hsh, show e.bitSize.toNat - 8 * (e.bitSize.toNat / 8) = e.bitSize.toNat % 8 by omega]
    have := msb_take (e.bitSize.toNat % 8) (8 - e.bitSize.toNat % 8) last.toNat
    rw [show e.bitSize.toNat % 8 + (8 - e.bitSize.toNat % 8) = 8 by omega, msb_eq, msb_eq] at this
    rw [← this]
    simp [bytesBits]

/-- The Go type has at most 64 bits. -/
def Narrow : Elem → Prop
  | .bits w _ | .sbits w _ => w ≤ 64
  | _ => True

/-- Array elements. -/
theorem scalar_trait : ∀ (k : Elem), Narrow k → ∀ (x : k.T) {out : List Bool}, scalar k x = some out → ∀ s,
    Writes (k.traits.write x) s out
  | .varint, _, (x : BitVec 64), out, h, s => by
    change Writes (writeVarint x) s out
    change (if x.toInt = -2 ^ 63 then some (msb 8 128) else svar 9 (x.toInt)) = some out at h
    unfold writeVarint
    split at h
    · rename_i hx
      have hm : x = minInt64 := by
        apply BitVec.eq_of_toInt_eq
        rw [hx]; decide
      rw [if_pos hm]
      injection h with h
      rw [← h, msb_eq]
      rfl
    · rename_i hx
      rw [if_neg]
      · exact svar_writes' (by omega) (by omega) h s
      · intro hm
        apply hx
        rw [hm]; decide
  | .varint16, _, (x : BitVec 16), out, h, s => svar_writes' (v := x.signExtend 64) (by omega) (by omega)
      (by rw [BitVec.toInt_signExtend_of_le (by omega)]; exact h) s
  | .varint32, _, (x : BitVec 32), out, h, s => svar_writes' (v := x.signExtend 64) (by omega) (by omega)
      (by rw [BitVec.toInt_signExtend_of_le (by omega)]; exact h) s
  | .varint64, _, (x : BitVec 64), out, h, s => svar_writes' (v := x) (by omega) (by omega) h s
  | .varuint, _, (x : BitVec 64), out, h, s => uvar_writes (v := x) (by omega) (by omega) h s
  | .varuint16, _, (x : BitVec 16), out, h, s => uvar_writes (v := x.setWidth 64) (by omega) (by omega)
      (by rw [toNat_setWidth64 (by omega)]; exact h) s
  | .varuint32, _, (x : BitVec 32), out, h, s => uvar_writes (v := x.setWidth 64) (by omega) (by omega)
      (by rw [toNat_setWidth64 (by omega)]; exact h) s
  | .varuint64, _, (x : BitVec 64), out, h, s => uvar_writes (v := x) (by omega) (by omega) h s
  | .varsize, _, (x : BitVec 64), out, h, s => varsize_writes' (v := x) h s
  | .bits w n, hk, (x : BitVec w), out, h, s => by
    change (if 1 ≤ n ∧ n ≤ 64 ∧ x.toNat < 2 ^ n then some (msb n (x.toNat)) else none) = some out at h
    split at h
    · injection h with h
      change Writes (Wr.bits (x.setWidth 64) n) s out
      unfold Writes
      rw [wrun_bits, ← h, toNat_setWidth64 hk, msb_eq]
    · cases h
  | .sbits w n, hk, (x : BitVec w), out, h, s => by
    change (if 1 ≤ n ∧ n ≤ 64 ∧ -2 ^ (n - 1) ≤ x.toInt ∧ x.toInt < 2 ^ (n - 1) then
      some (twos n (x.toInt)) else none) = some out at h
    split at h
    · rename_i hx
      injection h with h
      change Writes (Wr.bits (x.signExtend 64) n) s out
      unfold Writes
      rw [wrun_bits, ← h, twos_eq _ hx.2.1 hk]
    · cases h
  | .bool, _, x, out, h, s => by
    injection h with h
    rw [← h]
    exact wrun_bool x s
  | .string, _, x, out, h, s => string_writes h s
  | .bytes, _, none, out, h, s => by cases h
  | .bytes, _, some b, out, h, s => by
    change (if b.byteSize.toNat = b.buffer.length then (varsize b.buffer.length).map (· ++ octets b.buffer) else none)
      = some out at h
    split at h
    · rename_i hb
      exact bytes_writes hb h s
    · cases h
  | .extern, _, none, out, h, s => by cases h
  | .extern, _, some e, out, h, s => by
    change (if e.buffer.length = (e.bitSize.toNat + 7) / 8 then
      (varsize e.bitSize.toNat).map (· ++ (octets e.buffer).take e.bitSize.toNat) else none) = some out at h
    split at h
    · rename_i hb
      exact extern_writes hb h s
    · cases h
  | .float16, _, (x : BitVec 32), out, h, s => by
    change (half (x.toNat)).map (msb 16) = some out at h
    rw [Option.map_eq_some_iff] at h
    obtain ⟨a, ha, rfl⟩ := h
    rw [msb_eq, ← half_eq ha]
    exact binaryWrite_writes 2 (f32to16 x) s
  | .float32, _, (x : BitVec 32), out, h, s => by
    injection h with h
    rw [← h, msb_eq]
    exact binaryWrite_writes 4 x s
  | .float64, _, (x : BitVec 64), out, h, s => by
    injection h with h
    rw [← h, msb_eq]
    exact binaryWrite_writes 8 x s

/-- Scalar fields. -/
theorem scalar_field (k : Elem) (hk : Narrow k) (x : k.T) {out : List Bool} (h : scalar k x = some out) (s : List Bool) :
    Writes (k.writeS x) s out := by
  cases k with
  | bits w n =>
    change BitVec w at x
    have ht := scalar_trait _ hk x h s
    change (if 1 ≤ n ∧ n ≤ 64 ∧ x.toNat < 2 ^ n then some (msb n (x.toNat)) else none) = some out at h
    split at h
    · rename_i hx
      change Writes (writeUnsignedBits (x.setWidth 64) n) s out
      rw [writeUnsignedBits_ok hx.2.1 (by rw [toNat_setWidth64 hk]; exact hx.2.2)]
      exact ht
    · cases h
  | sbits w n =>
    change BitVec w at x
    change (if 1 ≤ n ∧ n ≤ 64 ∧ -2 ^ (n - 1) ≤ x.toInt ∧ x.toInt < 2 ^ (n - 1) then
      some (twos n (x.toInt)) else none) = some out at h
    split at h
    · rename_i hx
      injection h with h
      rw [← h, twos_eq _ hx.2.1 hk]
      exact writeSignedBits_ok hx.1 hx.2.1 (by rw [BitVec.toInt_signExtend_of_le hk]; exact hx.2.2) s
    · cases h
  | _ => exact scalar_trait _ hk x h s

end Verif.Wire
