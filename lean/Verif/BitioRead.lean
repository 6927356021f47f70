import Verif.Bitio

/-!
# Simulation of the byte-and-cache reader by the flat reader
-/

namespace Verif

/-- The concrete reader state represents the flat reader state. -/
def BR.Rep (r : BR) (s : RState) : Prop :=
  r.bits < 8 ∧ r.count = s.pos ∧ (0 < r.bits → r.cache.toNat < 2 ^ r.bits) ∧
  s.rem = natBits r.bits r.cache.toNat ++ bytesBits r.inp

/-- Operations for which bitio agrees with a flat bit list: all but `ReadBits(0)`, which at a byte boundary returns the
stale cache (see `C11_readBits_zero`). -/
def ROp.Safe : ROp → Prop
  | .bits n => 0 < n
  | _ => True

/-- Programs that never call `ReadBits(0)`, whatever the responses. -/
inductive RM.Safe {α : Type} : RM α → Prop
  | pure (a : α) : Safe (.pure a)
  | op (o : ROp) (k : Except Err o.Res → RM α) : o.Safe → (∀ r, Safe (k r)) → Safe (.op o k)

theorem BR.Rep.length {r : BR} {s : RState} (h : r.Rep s) : s.rem.length = r.bits + 8 * r.inp.length := by
  rw [h.2.2.2]; simp

theorem u64_shift_add (x k y : Nat) (u : BitVec 64) (b : BitVec 64) (hu : u = BitVec.ofNat 64 x)
    (hb : b.toNat = y) : (u <<< k) + b = BitVec.ofNat 64 (x * 2 ^ k + y) := by
  apply BitVec.eq_of_toNat_eq
  rw [BitVec.toNat_add, BitVec.toNat_shiftLeft, hu, hb, BitVec.toNat_ofNat, BitVec.toNat_ofNat, Nat.shiftLeft_eq,
    Nat.mod_mul_mod, Nat.mod_add_mod]

/-- The whole-byte loop: it fails exactly if there are too few bytes; otherwise it returns the accumulated number. -/
theorem readWhole_spec (n x : Nat) (inp : List (BitVec 8)) :
    (inp.length < n / 8 → readWhole n (BitVec.ofNat 64 x) inp = (none, [])) ∧
    (n / 8 ≤ inp.length → readWhole n (BitVec.ofNat 64 x) inp =
      (some (BitVec.ofNat 64 (x * 2 ^ (8 * (n / 8)) + bitsVal (bytesBits (inp.take (n / 8)))), n % 8),
        inp.drop (n / 8))) := by
  induction n using Nat.strongRecOn generalizing x inp with
  | _ n ih =>
    by_cases h : n < 8
    · have h0 : n / 8 = 0 := by omega
      have hw : readWhole n (BitVec.ofNat 64 x) inp = (some (BitVec.ofNat 64 x, n), inp) := by
        match n, h with
        | 0, _ => cases inp <;> rfl
        | 1, _ => cases inp <;> rfl
        | 2, _ => cases inp <;> rfl
        | 3, _ => cases inp <;> rfl
        | 4, _ => cases inp <;> rfl
        | 5, _ => cases inp <;> rfl
        | 6, _ => cases inp <;> rfl
        | 7, _ => cases inp <;> rfl
      refine ⟨fun hc => by omega, fun _ => ?_⟩
      rw [hw, h0, Nat.mod_eq_of_lt h]
      simp [bitsVal]
    · obtain ⟨m, rfl⟩ : ∃ m, n = m + 8 := ⟨n - 8, by omega⟩
      have hd : (m + 8) / 8 = m / 8 + 1 := by omega
      cases inp with
      | nil => exact ⟨fun _ => rfl, fun hc => by simp at hc⟩
      | cons b inp =>
        have e : (BitVec.ofNat 64 x <<< 8) + b.setWidth 64 = BitVec.ofNat 64 (x * 2 ^ 8 + b.toNat) := by
          refine u64_shift_add x 8 b.toNat _ _ rfl ?_
          have := b.isLt
          rw [BitVec.toNat_setWidth]; exact Nat.mod_eq_of_lt (by omega)
        have hr : readWhole (m + 8) (BitVec.ofNat 64 x) (b :: inp) =
            readWhole m (BitVec.ofNat 64 (x * 2 ^ 8 + b.toNat)) inp := by rw [readWhole, e]
        obtain ⟨i1, i2⟩ := ih m (by omega) (x * 2 ^ 8 + b.toNat) inp
        rw [hr, hd]
        refine ⟨fun hc => i1 (by simp at hc; omega), fun hc => ?_⟩
        rw [i2 (by simp at hc; omega)]
        rw [List.take_succ_cons, List.drop_succ_cons, bytesBits_cons, bitsVal_append, bitsVal_natBits_of_lt b.isLt,
          bytesBits_length, List.length_take, Nat.min_eq_left (by simp at hc; omega), Nat.add_mul, Nat.mul_assoc,
          ← Nat.pow_add, show 8 + 8 * (m / 8) = 8 * (m / 8 + 1) by omega, Nat.add_assoc,
          show (m + 8) % 8 = m % 8 by omega]

theorem bytesBits_take_drop (inp : List (BitVec 8)) (k : Nat) :
    bytesBits (inp.take k) ++ bytesBits (inp.drop k) = bytesBits inp := by
  rw [← bytesBits_append, List.take_append_drop]

theorem take_append_exact {α : Type} {a b : List α} {n : Nat} (h : a.length = n) :
    (a ++ b).take n = a ∧ (a ++ b).drop n = b := by
  subst h; exact ⟨List.take_left, List.drop_left⟩

theorem byte64_toNat (b : BitVec 8) : (b.setWidth 64).toNat = b.toNat := by
  have := b.isLt
  rw [BitVec.toNat_setWidth]; exact Nat.mod_eq_of_lt (by omega)

theorem ofNat64_setWidth (b : BitVec 8) {x : Nat} (h : b.toNat = x) : b.setWidth 64 = BitVec.ofNat 64 x := by
  apply BitVec.eq_of_toNat_eq
  have := b.isLt
  rw [byte64_toNat, BitVec.toNat_ofNat, h, Nat.mod_eq_of_lt (by omega)]

/-- What a step of the concrete reader has to do. -/
def StepOk (o : ROp) (r : BR) (s : RState) : Prop :=
  if o.need ≤ s.rem.length then
    (brStep o r).1 = .ok (o.resp (s.rem.take o.need) s.pos) ∧
      (brStep o r).2.Rep ⟨s.rem.drop o.need, s.pos + o.need⟩
  else (brStep o r).1 = .error (o.fail s).1 ∧ (brStep o r).2.Rep (o.fail s).2

theorem brReadBits_ok (n : Nat) (hn : 0 < n) (r : BR) (s : RState) (h : r.Rep s) : StepOk (.bits n) r s := by
  have hlen := h.length
  obtain ⟨hb, hcnt, hc, hs⟩ := h
  unfold StepOk
  show if n ≤ s.rem.length then
      (brReadBits n r).1 = .ok (BitVec.ofNat 64 (bitsVal (s.rem.take n))) ∧
        (brReadBits n r).2.Rep ⟨s.rem.drop n, s.pos + n⟩
    else (brReadBits n r).1 = .error .eof ∧ (brReadBits n r).2.Rep (ROp.fail (.bits n) s).2
  unfold brReadBits
  by_cases h1 : n < r.bits
  · rw [if_pos (by omega), if_pos h1]
    dsimp only
    have hcb := hc (by omega)
    have hsplit : natBits r.bits r.cache.toNat =
        natBits n (r.cache.toNat / 2 ^ (r.bits - n)) ++ natBits (r.bits - n) r.cache.toNat := by
      rw [← natBits_add, show n + (r.bits - n) = r.bits by omega]
    have hlt : r.cache.toNat / 2 ^ (r.bits - n) < 2 ^ n := by
      rw [Nat.div_lt_iff_lt_mul (Nat.two_pow_pos _), ← Nat.pow_add, show n + (r.bits - n) = r.bits by omega]
      exact hcb
    have ht := take_append_exact (a := natBits n (r.cache.toNat / 2 ^ (r.bits - n)))
      (b := natBits (r.bits - n) r.cache.toNat ++ bytesBits r.inp) (natBits_length _ _)
    rw [hs, hsplit, List.append_assoc, ht.1, ht.2]
    refine ⟨?_, by dsimp only; omega, by dsimp only; omega, ?_, ?_⟩
    · rw [bitsVal_natBits_of_lt hlt]
      congr 1
      exact ofNat64_setWidth _ (by rw [BitVec.toNat_ushiftRight, Nat.shiftRight_eq_div_pow])
    · intro _
      dsimp only
      rw [mask8 _ (by omega)]
      exact Nat.mod_lt _ (Nat.two_pow_pos _)
    · dsimp only
      rw [mask8 _ (by omega), natBits_mod _ _ (Nat.le_refl _)]
  · rw [if_neg h1]
    by_cases h2 : n > r.bits
    · rw [if_pos h2]
      dsimp only
      have hu : (if r.bits > 0 then r.cache.setWidth 64 else 0#64) =
          BitVec.ofNat 64 (bitsVal (natBits r.bits r.cache.toNat)) := by
        by_cases h0 : r.bits > 0
        · rw [if_pos h0]
          exact ofNat64_setWidth _ (bitsVal_natBits_of_lt (hc h0)).symm
        · rw [if_neg h0, show r.bits = 0 by omega]; rfl
      rw [hu]
      generalize hx : bitsVal (natBits r.bits r.cache.toNat) = x
      obtain ⟨w1, w2⟩ := readWhole_spec (n - r.bits) x r.inp
      by_cases h3 : r.inp.length < (n - r.bits) / 8
      · rw [w1 h3, if_neg (by omega)]
        dsimp only
        refine ⟨rfl, ?_⟩
        have hp : s.rem.length % 8 = r.bits := by omega
        have ha : s.rem.length / 8 = r.inp.length := by omega
        show BR.Rep _ (RState.mk (if (n - s.rem.length % 8) / 8 > s.rem.length / 8 then s.rem.take (s.rem.length % 8)
          else List.replicate (s.rem.length % 8) false) s.pos)
        rw [hp, ha, if_pos h3]
        refine ⟨hb, hcnt, hc, ?_⟩
        dsimp only
        rw [hs, (take_append_exact (natBits_length _ _)).1]
        simp
      · rw [w2 (by omega)]
        dsimp only
        by_cases h4 : (n - r.bits) % 8 > 0
        · rw [if_pos h4]
          cases hd : r.inp.drop ((n - r.bits) / 8) with
          | nil =>
            have hle : r.inp.length ≤ (n - r.bits) / 8 := List.drop_eq_nil_iff.mp hd
            rw [if_neg (by omega)]
            dsimp only
            refine ⟨rfl, ?_⟩
            have hp : s.rem.length % 8 = r.bits := by omega
            have ha : s.rem.length / 8 = r.inp.length := by omega
            show BR.Rep _ (RState.mk (if (n - s.rem.length % 8) / 8 > s.rem.length / 8 then s.rem.take (s.rem.length % 8)
          else List.replicate (s.rem.length % 8) false) s.pos)
            rw [hp, ha, if_neg (by omega)]
            refine ⟨hb, hcnt, fun _ => by simp, ?_⟩
            dsimp only
            rw [show (0#8).toNat = 0 from rfl, natBits_zero]
            simp
          | cons b inp =>
            have hlt : (n - r.bits) / 8 < r.inp.length := by
              by_contra hcon
              rw [List.drop_of_length_le (by omega)] at hd
              simp at hd
            rw [if_pos (by omega)]
            dsimp only
            have hm8 : (n - r.bits) % 8 < 8 := Nat.mod_lt _ (by omega)
            have hbsplit : natBits 8 b.toNat = natBits ((n - r.bits) % 8) (b.toNat / 2 ^ (8 - (n - r.bits) % 8)) ++
                natBits (8 - (n - r.bits) % 8) b.toNat := by
              rw [← natBits_add, show (n - r.bits) % 8 + (8 - (n - r.bits) % 8) = 8 by omega]
            have hblt : b.toNat / 2 ^ (8 - (n - r.bits) % 8) < 2 ^ ((n - r.bits) % 8) := by
              rw [Nat.div_lt_iff_lt_mul (Nat.two_pow_pos _), ← Nat.pow_add,
                show (n - r.bits) % 8 + (8 - (n - r.bits) % 8) = 8 by omega]
              exact b.isLt
            have hrem : s.rem = (natBits r.bits r.cache.toNat ++ bytesBits (r.inp.take ((n - r.bits) / 8)) ++
                natBits ((n - r.bits) % 8) (b.toNat / 2 ^ (8 - (n - r.bits) % 8))) ++
                (natBits (8 - (n - r.bits) % 8) b.toNat ++ bytesBits inp) := by
              rw [hs, ← bytesBits_take_drop r.inp ((n - r.bits) / 8), hd, bytesBits_cons, hbsplit]
              simp only [List.append_assoc]
            have htl : (bytesBits (r.inp.take ((n - r.bits) / 8))).length = 8 * ((n - r.bits) / 8) := by
              rw [bytesBits_length, List.length_take, Nat.min_eq_left (by omega)]
            have ht := take_append_exact (n := n)
              (a := natBits r.bits r.cache.toNat ++ bytesBits (r.inp.take ((n - r.bits) / 8)) ++
                natBits ((n - r.bits) % 8) (b.toNat / 2 ^ (8 - (n - r.bits) % 8)))
              (b := natBits (8 - (n - r.bits) % 8) b.toNat ++ bytesBits inp)
              (by rw [List.length_append, List.length_append, htl, natBits_length, natBits_length]; omega)
            rw [hrem, ht.1, ht.2]
            refine ⟨?_, by dsimp only; omega, by dsimp only; omega, ?_, ?_⟩
            · congr 1
              rw [u64_shift_add _ _ (b.toNat / 2 ^ (8 - (n - r.bits) % 8)) _ _ rfl (by
                rw [byte64_toNat, BitVec.toNat_ushiftRight, Nat.shiftRight_eq_div_pow])]
              rw [bitsVal_append, bitsVal_append, hx, htl, natBits_length, bitsVal_natBits_of_lt hblt]
            · intro _
              dsimp only
              rw [mask8 _ (by omega)]
              exact Nat.mod_lt _ (Nat.two_pow_pos _)
            · dsimp only
              rw [mask8 _ (by omega), natBits_mod _ _ (Nat.le_refl _)]
        · rw [if_neg h4, if_pos (by omega)]
          dsimp only
          have htl : (bytesBits (r.inp.take ((n - r.bits) / 8))).length = 8 * ((n - r.bits) / 8) := by
            rw [bytesBits_length, List.length_take, Nat.min_eq_left (by omega)]
          have ht := take_append_exact (n := n)
            (a := natBits r.bits r.cache.toNat ++ bytesBits (r.inp.take ((n - r.bits) / 8)))
            (b := bytesBits (r.inp.drop ((n - r.bits) / 8)))
            (by rw [List.length_append, htl, natBits_length]; omega)
          rw [hs, ← bytesBits_take_drop r.inp ((n - r.bits) / 8), ← List.append_assoc, ht.1, ht.2]
          refine ⟨?_, by simp, by dsimp only; omega, fun hc => by simp at hc, ?_⟩
          · rw [bitsVal_append, hx, htl]
          · simp [natBits]
    · rw [if_neg h2]
      have hn' : n = r.bits := by omega
      rw [if_pos (by omega)]
      dsimp only
      have ht := take_append_exact (a := natBits r.bits r.cache.toNat) (b := bytesBits r.inp) (n := n)
        (by rw [natBits_length]; exact hn'.symm)
      rw [hs, ht.1, ht.2]
      refine ⟨?_, by simp, by dsimp only; omega, fun hc => by simp at hc, ?_⟩
      · rw [bitsVal_natBits_of_lt (hc (by omega))]
        congr 1
        exact ofNat64_setWidth _ rfl
      · simp [natBits]

/-- The unaligned byte read. -/
theorem brUnalignedByte_ok (r : BR) (s : RState) (h : r.Rep s) (h0 : 0 < r.bits) :
    (∀ b inp, r.inp = b :: inp →
      (brUnalignedByte r).1 = .ok (BitVec.ofNat 8 (bitsVal (s.rem.take 8))) ∧
      (brUnalignedByte r).2.Rep ⟨s.rem.drop 8, s.pos + 8⟩ ∧ (brUnalignedByte r).2.bits = r.bits ∧
      (brUnalignedByte r).2.inp = inp) ∧
    (r.inp = [] → (brUnalignedByte r).1 = .error .eof ∧
      (brUnalignedByte r).2.Rep ⟨List.replicate r.bits false, s.pos⟩) := by
  obtain ⟨hb, hcnt, hc, hs⟩ := h
  have hcb := hc h0
  constructor
  · intro b inp hi
    unfold brUnalignedByte
    rw [hi]
    dsimp only
    have hbsplit : natBits 8 b.toNat = natBits (8 - r.bits) (b.toNat / 2 ^ r.bits) ++ natBits r.bits b.toNat := by
      rw [← natBits_add, show 8 - r.bits + r.bits = 8 by omega]
    have hblt : b.toNat / 2 ^ r.bits < 2 ^ (8 - r.bits) := by
      rw [Nat.div_lt_iff_lt_mul (Nat.two_pow_pos _), ← Nat.pow_add, show 8 - r.bits + r.bits = 8 by omega]
      exact b.isLt
    have hrem : s.rem = (natBits r.bits r.cache.toNat ++ natBits (8 - r.bits) (b.toNat / 2 ^ r.bits)) ++
        (natBits r.bits b.toNat ++ bytesBits inp) := by
      rw [hs, hi, bytesBits_cons, hbsplit]
      simp only [List.append_assoc]
    have ht := take_append_exact (n := 8)
      (a := natBits r.bits r.cache.toNat ++ natBits (8 - r.bits) (b.toNat / 2 ^ r.bits))
      (b := natBits r.bits b.toNat ++ bytesBits inp)
      (by rw [List.length_append, natBits_length, natBits_length]; omega)
    rw [hrem, ht.1, ht.2]
    refine ⟨?_, ⟨hb, by dsimp only; omega, ?_, ?_⟩, rfl, rfl⟩
    · congr 1
      apply BitVec.eq_of_toNat_eq
      rw [bitsVal_append, natBits_length, bitsVal_natBits_of_lt hcb, bitsVal_natBits_of_lt hblt, BitVec.toNat_or,
        shl_byte_toNat (n := r.bits) r.cache rfl hcb (by omega), BitVec.toNat_ushiftRight, Nat.shiftRight_eq_div_pow,
        Nat.mul_comm, ← Nat.two_pow_add_eq_or_of_lt hblt, BitVec.toNat_ofNat]
      refine (Nat.mod_eq_of_lt ?_).symm
      calc 2 ^ (8 - r.bits) * r.cache.toNat + b.toNat / 2 ^ r.bits
          < 2 ^ (8 - r.bits) * r.cache.toNat + 2 ^ (8 - r.bits) := by omega
        _ = 2 ^ (8 - r.bits) * (r.cache.toNat + 1) := by rw [Nat.mul_add, Nat.mul_one]
        _ ≤ 2 ^ (8 - r.bits) * 2 ^ r.bits := Nat.mul_le_mul_left _ (by omega)
        _ = 2 ^ 8 := by rw [← Nat.pow_add, show 8 - r.bits + r.bits = 8 by omega]
    · intro _
      dsimp only
      rw [mask8 _ (by omega)]
      exact Nat.mod_lt _ (Nat.two_pow_pos _)
    · dsimp only
      rw [mask8 _ (by omega), natBits_mod _ _ (Nat.le_refl _)]
  · intro hi
    unfold brUnalignedByte
    rw [hi]
    refine ⟨rfl, hb, hcnt, fun _ => by simp, ?_⟩
    dsimp only
    rw [show (0#8).toNat = 0 from rfl, natBits_zero]
    simp

theorem bitsBytes_snoc_take (l : List Bool) (h : 8 ≤ l.length) :
    bitsBytes l = BitVec.ofNat 8 (bitsVal (l.take 8)) :: bitsBytes (l.drop 8) := by
  rw [bitsBytes, if_neg (by omega)]

theorem brFullLoop_ok (n : Nat) (acc : List (BitVec 8)) (r : BR) (s : RState) (h : r.Rep s) (h0 : 0 < r.bits) :
    (n ≤ r.inp.length → (brFullLoop n acc r).1 = .ok (acc ++ bitsBytes (s.rem.take (8 * n))) ∧
      (brFullLoop n acc r).2.Rep ⟨s.rem.drop (8 * n), s.pos + 8 * n⟩) ∧
    (r.inp.length < n →
      (brFullLoop n acc r).1 = .error (if acc = [] ∧ r.inp = [] then .eof else .unexpectedEof) ∧
      (brFullLoop n acc r).2.Rep ⟨List.replicate r.bits false, s.pos + 8 * r.inp.length⟩) := by
  induction n generalizing acc r s with
  | zero =>
    refine ⟨fun _ => ⟨?_, ?_⟩, fun hc => by omega⟩
    · rw [brFullLoop]
      simp [bitsBytes]
    · rw [brFullLoop]
      simpa using h
  | succ n ih =>
    have hlen := h.length
    obtain ⟨u1, u2⟩ := brUnalignedByte_ok r s h h0
    cases hi : r.inp with
    | nil =>
      obtain ⟨e1, e2⟩ := u2 hi
      refine ⟨fun hc => by simp at hc, fun _ => ?_⟩
      rw [brFullLoop]
      cases hq : brUnalignedByte r with
      | mk a r' =>
        rw [hq] at e1 e2
        dsimp only at e1 e2
        rw [e1]
        dsimp only
        refine ⟨by simp, by simpa using e2⟩
    | cons b inp =>
      obtain ⟨e1, e2, e3, e4⟩ := u1 b inp hi
      rw [brFullLoop]
      cases hq : brUnalignedByte r with
      | mk a r' =>
        rw [hq] at e1 e2 e3 e4
        dsimp only at e1 e2 e3 e4
        rw [e1]
        dsimp only
        obtain ⟨i1, i2⟩ := ih (acc ++ [BitVec.ofNat 8 (bitsVal (s.rem.take 8))]) r' _ e2 (by omega)
        rw [hi] at hlen
        simp only [List.length_cons] at hlen
        constructor
        · intro hc
          simp only [List.length_cons] at hc
          obtain ⟨j1, j2⟩ := i1 (by rw [e4]; omega)
          dsimp only at j1 j2
          constructor
          · rw [j1, bitsBytes_snoc_take (s.rem.take (8 * (n + 1))) (by rw [List.length_take]; omega), List.append_assoc]
            rw [List.take_take, Nat.min_eq_left (by omega), List.drop_take, show 8 * (n + 1) - 8 = 8 * n by omega]
            rfl
          · rw [List.drop_drop] at j2
            rw [show 8 * (n + 1) = 8 + 8 * n by omega, ← Nat.add_assoc]
            exact j2
        · intro hc
          simp only [List.length_cons] at hc
          obtain ⟨j1, j2⟩ := i2 (by rw [e4]; omega)
          dsimp only at j1 j2
          constructor
          · rw [j1]; simp
          · rw [e3, e4] at j2
            rw [List.length_cons, show s.pos + 8 * (inp.length + 1) = s.pos + 8 + 8 * inp.length by omega]
            exact j2

theorem brStep_ok (o : ROp) (ho : o.Safe) (r : BR) (s : RState) (h : r.Rep s) : StepOk o r s := by
  cases o with
  | bits n => exact brReadBits_ok n ho r s h
  | pos =>
    unfold StepOk
    rw [if_pos (show ROp.pos.need ≤ _ from Nat.zero_le _)]
    exact ⟨congrArg Except.ok h.2.1, by simpa [ROp.need, brStep] using h⟩
  | byte =>
    have hlen := h.length
    unfold StepOk
    show if 8 ≤ s.rem.length then
        (brReadByte r).1 = .ok (BitVec.ofNat 8 (bitsVal (s.rem.take 8))) ∧
          (brReadByte r).2.Rep ⟨s.rem.drop 8, s.pos + 8⟩
      else (brReadByte r).1 = .error .eof ∧
        (brReadByte r).2.Rep { s with rem := List.replicate (s.rem.length % 8) false }
    unfold brReadByte
    by_cases h0 : r.bits = 0
    · rw [if_pos h0]
      have h' := h
      obtain ⟨hb, hcnt, hc, hs⟩ := h
      cases hi : r.inp with
      | nil =>
        rw [hi] at hlen
        rw [if_neg (by simp at hlen; omega)]
        dsimp only
        refine ⟨rfl, hb, hcnt, hc, ?_⟩
        rw [show s.rem.length % 8 = 0 by simp at hlen; omega, h0, hi]
        rfl
      | cons b inp =>
        rw [hi] at hlen
        rw [if_pos (by simp at hlen; omega)]
        dsimp only
        have ht := take_append_exact (a := natBits 8 b.toNat) (b := bytesBits inp) (natBits_length _ _)
        have hs' : s.rem = natBits 8 b.toNat ++ bytesBits inp := by rw [hs, h0, hi]; rfl
        rw [hs', ht.1, ht.2]
        refine ⟨?_, hb, by dsimp only; omega, hc, ?_⟩
        · rw [bitsVal_natBits_of_lt b.isLt, BitVec.ofNat_toNat, BitVec.setWidth_eq]
        · dsimp only; rw [h0]; rfl
    · rw [if_neg h0]
      obtain ⟨u1, u2⟩ := brUnalignedByte_ok r s h (by omega)
      have hb := h.1
      cases hi : r.inp with
      | nil =>
        rw [hi] at hlen
        rw [if_neg (by simp at hlen; omega), show s.rem.length % 8 = r.bits by simp at hlen; omega]
        exact u2 hi
      | cons b inp =>
        rw [hi] at hlen
        rw [if_pos (by simp at hlen; omega)]
        obtain ⟨a, b, _⟩ := u1 b inp hi
        exact ⟨a, b⟩
  | bool =>
    have hlen := h.length
    unfold StepOk
    show if 1 ≤ s.rem.length then
        (brReadBool r).1 = .ok ((s.rem.take 1).headD false) ∧
          (brReadBool r).2.Rep ⟨s.rem.drop 1, s.pos + 1⟩
      else (brReadBool r).1 = .error .eof ∧ (brReadBool r).2.Rep { s with rem := [] }
    obtain ⟨hb, hcnt, hc, hs⟩ := h
    unfold brReadBool
    by_cases h0 : r.bits = 0
    · rw [if_pos h0]
      cases hi : r.inp with
      | nil =>
        rw [hi] at hlen
        rw [if_neg (by simp at hlen; omega)]
        refine ⟨rfl, hb, hcnt, fun hp => by dsimp only at hp; omega, ?_⟩
        dsimp only
        rw [h0]
        rfl
      | cons b inp =>
        rw [hi] at hlen
        rw [if_pos (by simp at hlen; omega)]
        dsimp only
        have e1 : ∀ c : BitVec 8, decide (c &&& 0x80#8 ≠ 0#8) = c.toNat.testBit 7 ∧
            (c &&& 0x7f#8).toNat = c.toNat % 2 ^ 7 := by decide +kernel
        have hs' : s.rem = b.toNat.testBit 7 :: (natBits 7 b.toNat ++ bytesBits inp) := by
          rw [hs, h0, hi]; rfl
        rw [hs']
        refine ⟨?_, by simp, by dsimp only; omega, ?_, ?_⟩
        · rw [(e1 b).1]; rfl
        · intro _; dsimp only; rw [(e1 b).2]; exact Nat.mod_lt _ (by decide)
        · dsimp only; rw [(e1 b).2, natBits_mod _ _ (Nat.le_refl _)]; rfl
    · rw [if_neg h0, if_pos (by omega)]
      dsimp only
      obtain ⟨k, hk⟩ : ∃ k, r.bits = k + 1 := ⟨r.bits - 1, by omega⟩
      have hk8 : k < 7 := by omega
      have hs' : s.rem = r.cache.toNat.testBit k :: (natBits k r.cache.toNat ++ bytesBits r.inp) := by
        rw [hs, hk]; rfl
      have e1 : decide (r.cache &&& (1#8 <<< k) ≠ 0#8) = r.cache.toNat.testBit k := by
        have : ∀ j : Fin 8, ∀ c : BitVec 8, decide (c &&& (1#8 <<< j.val) ≠ 0#8) = c.toNat.testBit j.val := by
          decide +kernel
        exact this ⟨k, by omega⟩ r.cache
      rw [hs', hk, show k + 1 - 1 = k by omega, e1]
      refine ⟨rfl, by dsimp only; omega, by dsimp only; omega, ?_, ?_⟩
      · intro _
        dsimp only
        rw [mask8 _ (by omega)]
        exact Nat.mod_lt _ (Nat.two_pow_pos _)
      · dsimp only
        rw [mask8 _ (by omega), natBits_mod _ _ (Nat.le_refl _)]
        rfl
  | full n =>
    have hlen := h.length
    unfold StepOk
    show if 8 * n ≤ s.rem.length then
        (brFull n r).1 = .ok (bitsBytes (s.rem.take (8 * n))) ∧
          (brFull n r).2.Rep ⟨s.rem.drop (8 * n), s.pos + 8 * n⟩
      else (brFull n r).1 = .error (if s.rem.length / 8 = 0 then .eof else .unexpectedEof) ∧
        (brFull n r).2.Rep ⟨List.replicate (s.rem.length % 8) false, s.pos + 8 * (s.rem.length / 8)⟩
    have hb8 := h.1
    have hdiv : s.rem.length / 8 = r.inp.length := by omega
    have hmod : s.rem.length % 8 = r.bits := by omega
    rw [hdiv, hmod]
    unfold brFull
    by_cases h0 : r.bits = 0
    · rw [if_pos h0]
      obtain ⟨hb, hcnt, hc, hs⟩ := h
      have hs' : s.rem = bytesBits r.inp := by rw [hs, h0]; rfl
      by_cases hle : n ≤ r.inp.length
      · rw [if_pos hle, if_pos (by omega)]
        dsimp only
        have htl : (bytesBits (r.inp.take n)).length = 8 * n := by
          rw [bytesBits_length, List.length_take, Nat.min_eq_left hle]
        have ht := take_append_exact (b := bytesBits (r.inp.drop n)) htl
        rw [hs', ← bytesBits_take_drop r.inp n, ht.1, ht.2, bitsBytes_bytesBits]
        refine ⟨rfl, hb, by dsimp only; omega, hc, ?_⟩
        dsimp only; rw [h0]; rfl
      · rw [if_neg hle, if_neg (by omega)]
        dsimp only
        refine ⟨?_, hb, by dsimp only; omega, hc, ?_⟩
        · simp only [List.length_eq_zero_iff]
        · dsimp only; rw [h0]; rfl
    · rw [if_neg h0]
      obtain ⟨l1, l2⟩ := brFullLoop_ok n [] r s h (by omega)
      by_cases hle : n ≤ r.inp.length
      · rw [if_pos (by omega)]
        simpa using l1 hle
      · rw [if_neg (by omega)]
        have := l2 (by omega)
        simpa [List.length_eq_zero_iff] using this

/-- Simulation: on the concrete machine a safe program does what it does on the flat machine. -/
theorem RM.runC_sim {α : Type} {p : RM α} (hp : p.Safe) (r : BR) (s : RState) (h : r.Rep s) :
    (p.runC r).1 = (p.run s).1 ∧ (p.runC r).2.Rep (p.run s).2 := by
  induction hp generalizing r s with
  | pure a => exact ⟨rfl, h⟩
  | op o k ho hk ih =>
    have hstep := brStep_ok o ho r s h
    unfold StepOk at hstep
    rw [RM.runC, RM.run]
    split at hstep
    · rename_i hle
      rw [if_pos hle, hstep.1]
      exact ih _ _ _ hstep.2
    · rename_i hle
      rw [if_neg hle, hstep.1]
      exact ih _ _ _ hstep.2

theorem BR.new_rep (b : List (BitVec 8)) : (BR.new b).Rep ⟨bytesBits b, 0⟩ :=
  ⟨by simp [BR.new], rfl, fun h => by simp [BR.new] at h, rfl⟩

end Verif
