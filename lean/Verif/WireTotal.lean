import Verif.WireDecl

/-!
# Which values have a wire format, and which decisions agree
-/

namespace Verif.Wire

/-! ## Builtin types -/

theorem shortest_isSome {signed : Bool} {m v : Nat} (hm : 1 ≤ m) (h : v < 2 ^ room signed m m) :
    ∃ j, shortest signed m v = some j := by
  rw [← Option.isSome_iff_exists]
  unfold shortest
  rw [List.find?_isSome]
  exact ⟨m, by simpa using ⟨m - 1, by omega, by omega⟩, by simpa using h⟩

theorem uvar_some {m v : Nat} (hm : 1 ≤ m) (h : v < 2 ^ (7 * m + 1)) : ∃ out, uvar m v = some out := by
  obtain ⟨j, hj⟩ := shortest_isSome (signed := false) hm (v := v) (by unfold room; simpa using h)
  unfold uvar
  rw [hj]
  exact ⟨_, rfl⟩

theorem svar_some {m : Nat} {z : Int} (hm : 1 ≤ m) (h : z.natAbs < 2 ^ (7 * m)) : ∃ out, svar m z = some out := by
  obtain ⟨j, hj⟩ := shortest_isSome (signed := true) hm (v := z.natAbs) (by unfold room; simpa using h)
  unfold svar
  rw [hj]
  exact ⟨_, rfl⟩

theorem uvar_range {m v : Nat} {out : List Bool} (h : uvar m v = some out) : v < 2 ^ (7 * m + 1) := by
  unfold uvar at h
  rw [Option.map_eq_some_iff] at h
  obtain ⟨j, hj, _⟩ := h
  obtain ⟨h1, h2, h3⟩ := shortest_some hj
  refine Nat.lt_of_lt_of_le h3 (Nat.pow_le_pow_right (by omega) ?_)
  unfold room
  split <;> simp <;> omega

theorem svar_range {m : Nat} {z : Int} {out : List Bool} (h : svar m z = some out) : z.natAbs < 2 ^ (7 * m) := by
  unfold svar at h
  rw [Option.map_eq_some_iff] at h
  obtain ⟨j, hj, _⟩ := h
  obtain ⟨h1, h2, h3⟩ := shortest_some hj
  refine Nat.lt_of_lt_of_le h3 (Nat.pow_le_pow_right (by omega) ?_)
  unfold room
  split <;> simp <;> omega

theorem varsize_some {n : Nat} (h : n ≤ maxVarsize) : ∃ out, varsize n = some out := by
  unfold maxVarsize at h
  unfold varsize
  rw [if_pos (by omega)]
  exact uvar_some (by omega) (by omega)

/-- Every subnormal half. -/
theorem half_sub : ∀ a : Fin 2, ∀ b : Fin 1024,
    (half (f16to32 (BitVec.ofNat 16 (a.val * 32768 + b.val))).toNat).isSome = true := by
  decide +kernel

theorem half_some {x : BitVec 32} (h : IsHalf x) : ∃ y, half x.toNat = some y := by
  obtain ⟨h, -, rfl⟩ := h
  obtain ⟨s, e, c, hs, he, hc, hh, h1, h2, h3⟩ := f16_fields h
  rw [← Option.isSome_iff_exists]
  by_cases h0 : e = 0
  · have := half_sub ⟨s, hs⟩ ⟨c, hc⟩
    rwa [show s * 32768 + c = h.toNat by omega, BitVec.ofNat_toNat, BitVec.setWidth_eq] at this
  by_cases h31 : e = 31
  · subst h31
    have hq := f16to32_special hs hc h1 h2 h3
    rw [hq]
    by_cases hc0 : c = 0
    · rw [if_pos hc0]
      have e1 : (s * 2147483648 + 255 * 8388608 + 0) / 2 ^ 23 % 256 = 255 := by omega
      have e2 : (s * 2147483648 + 255 * 8388608 + 0) % 2 ^ 23 = 0 := by omega
      unfold half
      simp only [e1, e2]
      simp
    · rw [if_neg hc0]
      have hx : c ||| 512 < 1024 := Nat.or_lt_two_pow (n := 10) (by omega) (by omega)
      have hx0 : 512 ≤ c ||| 512 := Nat.right_le_or
      generalize c ||| 512 = q at *
      have e1 : (s * 2147483648 + 255 * 8388608 + q * 8192) / 2 ^ 23 % 256 = 255 := by omega
      have e2 : (s * 2147483648 + 255 * 8388608 + q * 8192) % 2 ^ 23 = q * 8192 := by omega
      unfold half
      simp only [e1, e2]
      have e3 : q * 8192 % 2 ^ 13 = 0 := Nat.mul_mod_left q 8192
      have e4 : 2 ^ 22 ≤ q * 8192 := by omega
      simp only [e3, e4]
      split_ifs <;> first | rfl | (exfalso; simp_all)
  · rw [f16to32_normal hs (by omega) (by omega) hc h1 h2 h3]
    have e1 : (s * 2147483648 + (e + 112) * 8388608 + c * 8192) / 2 ^ 23 % 256 = e + 112 := by omega
    have e2 : (s * 2147483648 + (e + 112) * 8388608 + c * 8192) % 2 ^ 23 = c * 8192 := by omega
    unfold half
    simp only [e1, e2]
    rw [if_neg (by omega), if_neg (by omega), if_pos (by omega)]
    rfl

theorem natAbs_le_of_leS {w max : Nat} {x : BitVec w} (h : LeS max x) : x.toInt.natAbs ≤ max := by
  unfold LeS at h
  rw [Int.abs_eq_natAbs] at h
  exact_mod_cast h

/-- Every value in the range of its type has an encoding. -/
theorem scalar_ok : ∀ (k : Elem), k.Wf → ∀ x : k.T, k.Ok x → ∃ out, scalar k x = some out
  | .varint, _, (x : BitVec 64), _ => by
    show ∃ out, (if x.toInt = -2 ^ 63 then some (msb 8 128) else svar 9 x.toInt) = some out
    split
    · exact ⟨_, rfl⟩
    · refine svar_some (by omega) ?_
      have := BitVec.le_toInt x
      have := BitVec.toInt_lt (x := x)
      norm_num at *
      omega
  | .varint16, _, (x : BitVec 16), h => svar_some (by omega) (by
      have := natAbs_le_of_leS h; unfold maxVarint16 at this; omega)
  | .varint32, _, (x : BitVec 32), h => svar_some (by omega) (by
      have := natAbs_le_of_leS h; unfold maxVarint32 at this; omega)
  | .varint64, _, (x : BitVec 64), h => svar_some (by omega) (by
      have := natAbs_le_of_leS h; unfold maxVarint64 at this; omega)
  | .varuint, _, (x : BitVec 64), _ => uvar_some (by omega) (by have := x.isLt; omega)
  | .varuint16, _, (x : BitVec 16), h => uvar_some (by omega) (by
      have h : x.toNat ≤ maxVaruint16 := h; unfold maxVaruint16 at h; omega)
  | .varuint32, _, (x : BitVec 32), h => uvar_some (by omega) (by
      have h : x.toNat ≤ maxVaruint32 := h; unfold maxVaruint32 at h; omega)
  | .varuint64, _, (x : BitVec 64), h => uvar_some (by omega) (by
      have h : x.toNat ≤ maxVaruint64 := h; unfold maxVaruint64 at h; omega)
  | .varsize, _, (x : BitVec 64), h => varsize_some h
  | .bits w n, hk, (x : BitVec w), h => ⟨_, if_pos ⟨hk.1, by have := hk.2.1; have := hk.2.2; omega, h⟩⟩
  | .sbits w n, hk, (x : BitVec w), h => ⟨_, if_pos ⟨hk.1, by have := hk.2.1; have := hk.2.2; omega, h.1, h.2⟩⟩
  | .bool, _, _, _ => ⟨_, rfl⟩
  | .string, _, (x : List Byte), h => by
    obtain ⟨o, ho⟩ := varsize_some h
    exact ⟨_, by show (varsize x.length).map _ = _; rw [ho]; rfl⟩
  | .bytes, _, none, h => h.elim
  | .bytes, _, some b, h => by
    have hb : b.byteSize.toNat = b.buffer.length := h.1
    obtain ⟨o, ho⟩ := varsize_some (n := b.buffer.length) (by rw [← hb]; exact h.2)
    refine ⟨o ++ octets b.buffer, ?_⟩
    show (if b.byteSize.toNat = b.buffer.length then _ else _) = _
    rw [if_pos hb, ho]; rfl
  | .extern, _, none, h => h.elim
  | .extern, _, some e, h => by
    obtain ⟨o, ho⟩ := varsize_some h.2
    refine ⟨o ++ (octets e.buffer).take e.bitSize.toNat, ?_⟩
    show (if e.buffer.length = (e.bitSize.toNat + 7) / 8 then _ else _) = _
    rw [if_pos h.1.1, ho]; rfl
  | .float16, _, (x : BitVec 32), h => by
    obtain ⟨y, hy⟩ := half_some h
    exact ⟨_, by show (half x.toNat).map _ = _; rw [hy]; rfl⟩
  | .float32, _, _, _ => ⟨_, rfl⟩
  | .float64, _, _, _ => ⟨_, rfl⟩

/-! ## Sizes -/

theorem leS_of {w : Nat} {x : BitVec w} {max : Nat} (h : x.toInt.natAbs ≤ max) : LeS max x := by
  unfold LeS
  rw [Int.abs_eq_natAbs]
  exact_mod_cast h

theorem exact_size (k : Elem) (hw : k.Wf) (hk : Narrow k) {x : k.T} (hx : k.SizeOk x) {out : List Bool}
    (h : scalar k x = some out) : k.traits.bitSizeOf x = out.length := by
  obtain ⟨o, h1, h2⟩ := k.exact hw x hx []
  rw [← h1, h2.unique (scalar_trait k hk x h [])]

/-- The reported size of integers. -/
theorem reported_eq : ∀ (k : Elem), Narrow k → k.isDelta = true → ∀ (x : k.T) {out : List Bool}, scalar k x = some out →
    rightSize k x = true → k.traits.bitSizeOf x = out.length
  | .varint, hk, _, (x : BitVec 64), out, h, hr => by
    have h1 : x.toInt.natAbs < 2 ^ 55 := of_decide_eq_true hr
    have h2 : LeS (2 ^ 55 - 1) x := leS_of (by omega)
    exact exact_size .varint trivial hk h2 h
  | .varuint, hk, _, (x : BitVec 64), out, h, hr => by
    have h1 : x.toNat < 2 ^ 56 := of_decide_eq_true hr
    have h2 : LeU (2 ^ 56 - 1) x := by unfold LeU; omega
    exact exact_size .varuint trivial hk h2 h
  | .varuint16, hk, _, (x : BitVec 16), out, h, hr => by
    have h1 : x.toNat < 2 ^ 14 := of_decide_eq_true hr
    have h2 : LeU (2 ^ 14 - 1) x := by unfold LeU; omega
    exact exact_size .varuint16 trivial hk h2 h
  | .varint16, hk, _, (x : BitVec 16), out, h, _ => by
    have h1 := svar_range (z := x.toInt) h
    have h2 : LeS maxVarint16 x := leS_of (by unfold maxVarint16; omega)
    exact exact_size .varint16 trivial hk h2 h
  | .varint32, hk, _, (x : BitVec 32), out, h, _ => by
    have h1 := svar_range (z := x.toInt) h
    have h2 : LeS maxVarint32 x := leS_of (by unfold maxVarint32; omega)
    exact exact_size .varint32 trivial hk h2 h
  | .varint64, hk, _, (x : BitVec 64), out, h, _ => by
    have h1 := svar_range (z := x.toInt) h
    have h2 : LeS maxVarint64 x := leS_of (by unfold maxVarint64; omega)
    exact exact_size .varint64 trivial hk h2 h
  | .varuint32, hk, _, (x : BitVec 32), out, h, _ => by
    have h1 := uvar_range (v := x.toNat) h
    have h2 : LeU maxVaruint32 x := by unfold LeU maxVaruint32; omega
    exact exact_size .varuint32 trivial hk h2 h
  | .varuint64, hk, _, (x : BitVec 64), out, h, _ => by
    have h1 := uvar_range (v := x.toNat) h
    have h2 : LeU maxVaruint64 x := by unfold LeU maxVaruint64; omega
    exact exact_size .varuint64 trivial hk h2 h
  | .varsize, hk, _, (x : BitVec 64), out, h, _ => by
    have h1 : varsize x.toNat = some out := h
    have h2 : LeU maxVarsize x := by
      unfold varsize at h1
      unfold LeU maxVarsize
      split at h1
      · omega
      · cases h1
    exact exact_size .varsize trivial hk h2 h
  | .bits w n, _, _, (x : BitVec w), out, h, _ => by
    change (if 1 ≤ n ∧ n ≤ 64 ∧ x.toNat < 2 ^ n then some (msb n x.toNat) else none) = some out at h
    split at h
    · injection h with h
      rw [← h, msb_length]
      rfl
    · cases h
  | .sbits w n, _, _, (x : BitVec w), out, h, _ => by
    change (if 1 ≤ n ∧ n ≤ 64 ∧ -2 ^ (n - 1) ≤ x.toInt ∧ x.toInt < 2 ^ (n - 1) then
      some (twos n (x.toInt)) else none) = some out at h
    split at h
    · injection h with h
      rw [← h]
      unfold twos
      rw [msb_length]
      rfl
    · cases h

/-! ## Decisions -/

/-- The numbers of integer types. -/
theorem num_range : ∀ o : Occ, o.Fine → -2 ^ 63 ≤ o.num ∧ o.num < 2 ^ 64
  | ⟨.varint, (x : BitVec 64)⟩, _ => signed_range (Nat.le_refl 64) x
  | ⟨.varint64, (x : BitVec 64)⟩, _ => signed_range (Nat.le_refl 64) x
  | ⟨.varint16, (x : BitVec 16)⟩, _ => signed_range (by omega) x
  | ⟨.varint32, (x : BitVec 32)⟩, _ => signed_range (by omega) x
  | ⟨.varuint, (x : BitVec 64)⟩, _ => unsigned_range (Nat.le_refl 64) x
  | ⟨.varuint64, (x : BitVec 64)⟩, _ => unsigned_range (Nat.le_refl 64) x
  | ⟨.varsize, (x : BitVec 64)⟩, _ => unsigned_range (Nat.le_refl 64) x
  | ⟨.varuint16, (x : BitVec 16)⟩, _ => unsigned_range (by omega) x
  | ⟨.varuint32, (x : BitVec 32)⟩, _ => unsigned_range (by omega) x
  | ⟨.bits w n, (x : BitVec w)⟩, h => unsigned_range h.2 x
  | ⟨.sbits w n, (x : BitVec w)⟩, h => signed_range h.2 x
  | ⟨.bool, _⟩, h => by simp [Occ.Fine, Elem.isDelta] at h
  | ⟨.string, _⟩, h => by simp [Occ.Fine, Elem.isDelta] at h
  | ⟨.bytes, _⟩, h => by simp [Occ.Fine, Elem.isDelta] at h
  | ⟨.extern, _⟩, h => by simp [Occ.Fine, Elem.isDelta] at h
  | ⟨.float16, _⟩, h => by simp [Occ.Fine, Elem.isDelta] at h
  | ⟨.float32, _⟩, h => by simp [Occ.Fine, Elem.isDelta] at h
  | ⟨.float64, _⟩, h => by simp [Occ.Fine, Elem.isDelta] at h
where
  signed_range {w : Nat} (hw : w ≤ 64) (x : BitVec w) : -2 ^ 63 ≤ x.toInt ∧ x.toInt < 2 ^ 64 := by
    have h1 := (x.signExtend 64).le_toInt
    have h2 := (x.signExtend 64).toInt_lt
    rw [BitVec.toInt_signExtend_of_le hw] at h1 h2
    norm_num at *
    omega
  unsigned_range {w : Nat} (hw : w ≤ 64) (x : BitVec w) : -2 ^ 63 ≤ (x.toNat : Int) ∧ (x.toNat : Int) < 2 ^ 64 := by
    have := x.isLt
    have : (2 : Nat) ^ w ≤ 2 ^ 64 := Nat.pow_le_pow_right (by omega) hw
    norm_num at *
    omega

theorem img_cases {o : Occ} (h : o.Fine) : (0 ≤ o.num ∧ (img o : Int) = o.num) ∨ (o.num < 0 ∧ (img o : Int) = o.num + 2 ^ 64) := by
  obtain ⟨h1, h2⟩ := num_range o h
  unfold img
  norm_num at *
  omega

theorem spread_gap : ∀ (os : List Occ) (o : Occ), (∀ x ∈ o :: os, x.Fine) → oneSided ((o :: os).map Occ.num) = true →
    spread (img o) (os.map img) = gap ((o :: os).map Occ.num)
  | [], _, _, _ => rfl
  | b :: os, o, hf, hs => by
    simp only [List.map_cons, oneSided, Bool.and_eq_true] at hs
    have ih := spread_gap os b (fun x hx => hf x (List.mem_cons_of_mem _ hx)) hs.2
    simp only [List.map_cons] at ih ⊢
    unfold spread gap
    rw [ih]
    congr 2
    have h1 := img_cases (hf o (by simp))
    have h2 := img_cases (hf b (by simp))
    have hs1 := hs.1
    unfold sameSide at hs1
    simp only [beq_iff_eq, decide_eq_decide] at hs1
    unfold dist
    norm_num at *
    omega

theorem encodable_iff (o : Occ) : o.encodable = true ↔ o.Fine ∧ ∃ b, scalar o.k o.v = some b := by
  unfold Occ.encodable Occ.Fine
  rw [Bool.and_eq_true, Bool.and_eq_true, ← Option.isSome_iff_exists]
  obtain ⟨k, v⟩ := o
  cases k <;> simp [Narrow]

/-- The code decides as the format prescribes about calm sequences. -/
theorem plan_eq {os : List Occ} (hc : calm os = true) : goPlan os = standardPlan os := by
  unfold calm at hc
  rw [Bool.and_eq_true, List.all_eq_true] at hc
  have hf : ∀ o ∈ os, o.Fine := fun o ho => ((encodable_iff o).mp (Bool.and_eq_true_iff.mp (hc.2 o ho)).1).1
  have hr : os.map reported = os.map bitsOf := by
    apply List.map_congr_left
    intro o ho
    obtain ⟨b, hb⟩ := ((encodable_iff o).mp (Bool.and_eq_true_iff.mp (hc.2 o ho)).1).2
    unfold bitsOf reported
    rw [hb]
    exact reported_eq o.k (hf o ho).2 (hf o ho).1 o.v hb (Bool.and_eq_true_iff.mp (hc.2 o ho)).2
  cases os with
  | nil => rfl
  | cons o os =>
    unfold goPlan standardPlan
    dsimp only
    rw [spread_gap os o hf hc.1, ← hr]
    simp only [List.map_cons, List.headD_cons, List.length_cons, Nat.add_sub_cancel, deltaBits_eq]

/-- A sequence with neighbours on different sides of zero less than 2^63 apart is never packed. -/
theorem crossing_unpacked (xs ys : List Occ) (a b : Occ) (hf : ∀ o ∈ xs ++ a :: b :: ys, o.Fine)
    (hs : sameSide a.num b.num = false) (hd : (b.num - a.num).natAbs < 2 ^ 63) : goPlan (xs ++ a :: b :: ys) = none := by
  have key : ∀ (xs : List Occ) (p : Occ), (∀ o ∈ p :: (xs ++ b :: ys), o.Fine) →
      (∀ q, (p :: xs).getLast? = some q → q = a) → 62 < spread (img p) ((xs ++ b :: ys).map img) := by
    intro xs
    induction xs with
    | nil =>
      intro p hp hl
      obtain rfl := hl p rfl
      simp only [List.nil_append, List.map_cons]
      unfold spread
      have h1 := img_cases (hp p (by simp))
      have h2 := img_cases (hp b (by simp))
      have : 2 ^ 62 ≤ dist (img b) (img p) := by
        unfold sameSide at hs
        rw [beq_eq_false_iff_ne, ne_eq, decide_eq_decide] at hs
        unfold dist
        norm_num at *
        omega
      have := Nat.lt_size.mpr this
      omega
    | cons c xs ih =>
      intro p hp hl
      have := ih c (fun o ho => hp o (by simp only [List.cons_append]; exact List.mem_cons_of_mem _ ho))
        (fun q hq => hl q (by rw [List.getLast?_cons_cons]; exact hq))
      simp only [List.cons_append, List.map_cons]
      unfold spread
      omega
  have fin : ∀ p os, 62 < spread (img p) (os.map img) → goPlan (p :: os) = none := by
    intro p os h
    unfold goPlan
    dsimp only
    rw [if_neg (by omega)]
  cases xs with
  | nil => exact fin a (b :: ys) (key [] a (by simpa using hf) (by simp))
  | cons p xs =>
    have := key (xs ++ [a]) p (by simpa using hf) (by
      intro q hq
      rw [List.getLast?_cons, List.getLast?_append] at hq
      simpa using hq.symm)
    have e : p :: xs ++ a :: b :: ys = p :: ((xs ++ [a]) ++ b :: ys) := by simp
    rw [e]
    exact fin _ _ this

/-! ## Comparing formats -/

/-- `dec'` decides at least where `dec` does, and the same. -/
def Decide.Le (dec dec' : Decide) : Prop := ∀ os r, dec os = some r → dec' os = some r

theorem careful_standard : careful.Le standard := by
  intro os r h
  unfold careful at h
  split at h
  · exact h
  · cases h

theorem careful_go : careful.Le goDec := by
  intro os r h
  unfold careful at h
  split at h
  · rename_i hc
    unfold goDec
    rw [plan_eq hc]
    exact h
  · cases h

/-- A defined encoding stays the same. -/
def FnLe (f g : Nat → Option (List Bool)) : Prop := ∀ pos out, f pos = some out → g pos = some out

inductive PieceLe : Piece → Piece → Prop
  | leaf (p : List Nat) (o : Occ) : PieceLe (.leaf p o) (.leaf p o)
  | raw {f g : Nat → Option (List Bool)} (h : FnLe f g) : PieceLe (.raw f) (.raw g)

abbrev PiecesLe := List.Forall₂ PieceLe

theorem PieceLe.refl (p : Piece) : PieceLe p p := by
  cases p with
  | leaf p o => exact .leaf p o
  | raw f => exact .raw fun _ _ h => h

theorem PiecesLe_refl : ∀ ps : List Piece, PiecesLe ps ps
  | [] => .nil
  | p :: ps => .cons (PieceLe.refl p) (PiecesLe_refl ps)

structure FmtLe (F G : Fmt) : Prop where
  plain : ∀ v, FnLe (F.plain v) (G.plain v)
  pieces : ∀ v ps, F.pieces v = some ps → ∃ qs, G.pieces v = some qs ∧ PiecesLe ps qs
  finite : F.finite = G.finite

theorem occs_le {ps qs : List Piece} (h : PiecesLe ps qs) (p : List Nat) : occs p ps = occs p qs := by
  induction h with
  | nil => rfl
  | cons h _ ih =>
    cases h with
    | leaf q o => simp only [occs, ih]
    | raw h => simpa only [occs] using ih

theorem lift_le {ps qs : List Piece} (h : PiecesLe ps qs) (i : Nat) : PiecesLe (ps.map (Piece.lift i)) (qs.map (Piece.lift i)) := by
  induction h with
  | nil => exact .nil
  | cons h _ ih =>
    refine .cons ?_ ih
    cases h with
    | leaf q o => exact .leaf _ _
    | raw h => exact .raw h

theorem append_le {a b c d : List Piece} (h : PiecesLe a b) (h' : PiecesLe c d) : PiecesLe (a ++ c) (b ++ d) := by
  induction h with
  | nil => exact h'
  | cons h _ ih => exact .cons h ih

section le
variable {dec dec' : Decide} (hd : dec.Le dec')
include hd

theorem chunk_le {os : List Occ} {j : Nat} {out : List Bool} (h : chunk dec os j = some out) : chunk dec' os j = some out := by
  unfold chunk at h ⊢
  simp only [Option.bind_eq_bind, Option.bind_eq_some_iff] at h ⊢
  obtain ⟨o, ho, b, hb, r, hr, h⟩ := h
  exact ⟨o, ho, b, hb, r, hd _ _ hr, h⟩

theorem lay_le {all : List Nat → List Occ} {ps qs : List Piece} (h : PiecesLe ps qs) : ∀ {seen : List Nat → Nat} {pos : Nat}
    {out : List Bool}, lay dec all seen ps pos = some out → lay dec' all seen qs pos = some out := by
  induction h with
  | nil => exact fun h => h
  | cons hp _ ih =>
    intro seen pos out h
    cases hp with
    | leaf q o =>
      simp only [lay, Option.bind_eq_bind, Option.bind_eq_some_iff] at h ⊢
      obtain ⟨a, ha, b, hb, he⟩ := h
      exact ⟨a, chunk_le hd ha, b, ih hb, he⟩
    | raw hf =>
      simp only [lay, Option.bind_eq_bind, Option.bind_eq_some_iff] at h ⊢
      obtain ⟨a, ha, b, hb, he⟩ := h
      exact ⟨a, hf _ _ ha, b, ih hb, he⟩

theorem layAll_le {ps qs : List Piece} (h : PiecesLe ps qs) : FnLe (layAll dec ps) (layAll dec' qs) := by
  intro pos out ho
  unfold layAll at ho ⊢
  rw [show (fun p => occs p qs) = fun p => occs p ps from funext fun p => (occs_le h p).symm]
  exact lay_le hd h ho

omit hd in
theorem inOrder_le {f g : Val → Nat → Option (List Bool)} (h : ∀ v, FnLe (f v) (g v)) :
    ∀ vs, FnLe (inOrder f vs) (inOrder g vs)
  | [] => fun _ _ h => h
  | v :: vs => by
    intro pos out ho
    simp only [inOrder, Option.bind_eq_bind, Option.bind_eq_some_iff] at ho ⊢
    obtain ⟨a, ha, b, hb, he⟩ := ho
    exact ⟨a, h v _ _ ha, b, inOrder_le h vs _ _ hb, he⟩

omit hd in
theorem allPieces_le {F G : Fmt} (h : FmtLe F G) : ∀ vs ps, allPieces F.pieces vs = some ps →
    ∃ qs, allPieces G.pieces vs = some qs ∧ PiecesLe ps qs
  | [], ps, hp => by
    injection hp with hp
    subst hp
    exact ⟨[], rfl, .nil⟩
  | v :: vs, ps, hp => by
    simp only [allPieces, Option.bind_eq_bind, Option.bind_eq_some_iff] at hp
    obtain ⟨a, ha, b, hb, he⟩ := hp
    injection he with he
    subst he
    obtain ⟨a', ha', h1⟩ := h.pieces v a ha
    obtain ⟨b', hb', h2⟩ := allPieces_le h vs b hb
    exact ⟨a' ++ b', by simp only [allPieces, ha', hb', Option.bind_eq_bind, Option.bind_some], append_le h1 h2⟩

theorem primElems_le (packed : Bool) (k : Elem) (vs : List Val) :
    FnLe (primElems dec packed k vs) (primElems dec' packed k vs) := by
  intro pos out h
  unfold primElems at h ⊢
  split
  · rename_i hc
    rw [if_pos hc] at h
    exact layAll_le hd (PiecesLe_refl _) _ _ h
  · rename_i hc
    rw [if_neg hc] at h
    exact h

theorem compElems_le {F G : Fmt} (hF : FmtLe F G) (packed : Bool) (vs : List Val) :
    FnLe (compElems dec packed F vs) (compElems dec' packed G vs) := by
  intro pos out h
  unfold compElems at h ⊢
  rw [← hF.finite]
  split
  · rename_i hc
    rw [if_pos hc] at h
    split
    · rename_i hf
      rw [if_pos hf] at h
      simp only [Option.bind_eq_bind, Option.bind_eq_some_iff] at h ⊢
      obtain ⟨ps, hp, h⟩ := h
      obtain ⟨qs, hq, hl⟩ := allPieces_le hF vs ps hp
      exact ⟨qs, hq, layAll_le hd hl _ _ h⟩
    · rename_i hf
      rw [if_neg hf] at h
      exact h
  · rename_i hc
    rw [if_neg hc] at h
    exact inOrder_le hF.plain vs _ _ h

variable {fm gm : Nat → Fmt} (hm : ∀ n, FmtLe (fm n) (gm n))
include hm

theorem array_le (f : Field) (x : Exprs) (packed : Bool) (v : Val) :
    FnLe (array dec fm f x packed v) (array dec' gm f x packed v) := by
  intro pos out h
  cases v with
  | list vs =>
    simp only [array] at h ⊢
    split
    · rename_i hc
      rw [if_pos hc] at h
      simp only [Option.bind_eq_bind, Option.bind_eq_some_iff] at h ⊢
      obtain ⟨a, ha, b, hb, he⟩ := h
      refine ⟨a, ha, b, ?_, he⟩
      unfold elements at hb ⊢
      split
      · rename_i hv
        rw [if_pos hv] at hb
        exact hb
      · rename_i hv
        rw [if_neg hv] at hb
        cases ht : f.ty with
        | prim k =>
          rw [ht] at hb
          exact primElems_le hd _ _ _ _ _ hb
        | comp n =>
          rw [ht] at hb
          exact compElems_le hd (hm n) _ _ _ _ hb
    · rename_i hc
      rw [if_neg hc] at h
      cases h
  | _ => simp [array] at h

theorem value_le (f : Field) (x : Exprs) (v : Val) : FnLe (value dec fm f x v) (value dec' gm f x v) := by
  intro pos out h
  unfold value at h ⊢
  cases ha : f.arr with
  | some packed =>
    simp only [ha] at h ⊢
    exact array_le hd hm f x packed v _ _ h
  | none =>
    cases ht : f.ty with
    | prim k =>
      simp only [ha, ht] at h ⊢
      exact h
    | comp n =>
      simp only [ha, ht] at h ⊢
      exact (hm n).plain _ _ _ h

theorem field_le (f : Field) (x : Exprs) (v : Val) : FnLe (field dec fm f x v) (field dec' gm f x v) := by
  intro pos out h
  unfold field at h ⊢
  by_cases hx : x.active = true
  · rw [if_pos hx] at h ⊢
    dsimp only at h ⊢
    by_cases ho : f.optional = true
    · rw [if_pos ho] at h ⊢
      cases v with
      | none => exact h
      | some u =>
        simp only [Option.bind_eq_bind, Option.bind_eq_some_iff] at h ⊢
        obtain ⟨b, hb, he⟩ := h
        exact ⟨b, value_le hd hm f x u _ _ hb, he⟩
      | _ => exact h
    · rw [if_neg ho] at h ⊢
      simp only [Option.bind_eq_bind, Option.bind_eq_some_iff] at h ⊢
      obtain ⟨b, hb, he⟩ := h
      exact ⟨b, value_le hd hm f x v _ _ hb, he⟩
  · rw [if_neg hx] at h ⊢
    exact h

theorem valuePieces_le (f : Field) (x : Exprs) (v : Val) (ps : List Piece) (h : valuePieces dec fm f x v = some ps) :
    ∃ qs, valuePieces dec' gm f x v = some qs ∧ PiecesLe ps qs := by
  unfold valuePieces at h ⊢
  cases ha : f.arr with
  | some packed =>
    simp only [ha, Option.some.injEq] at h ⊢
    subst h
    exact ⟨_, rfl, .cons (.raw (array_le hd hm f x true v)) .nil⟩
  | none =>
    cases ht : f.ty with
    | prim k =>
      simp only [ha, ht] at h ⊢
      exact ⟨ps, h, PiecesLe_refl _⟩
    | comp n =>
      simp only [ha, ht] at h ⊢
      exact (hm n).pieces _ _ h

theorem fieldPieces_le (f : Field) (x : Exprs) (v : Val) (ps : List Piece) (h : fieldPieces dec fm f x v = some ps) :
    ∃ qs, fieldPieces dec' gm f x v = some qs ∧ PiecesLe ps qs := by
  have same : ∀ ps : List Piece, PiecesLe ps ps := fun ps => PiecesLe_refl _
  unfold fieldPieces at h ⊢
  by_cases hx : x.active = true
  · simp only [hx, if_true] at h ⊢
    by_cases ho : f.optional = true
    · simp only [ho, if_true] at h ⊢
      cases v with
      | none => exact ⟨ps, h, same ps⟩
      | some u =>
        simp only [Option.bind_eq_bind, Option.bind_eq_some_iff] at h
        obtain ⟨a, ha, he⟩ := h
        injection he with he
        subst he
        obtain ⟨b, hb, hl⟩ := valuePieces_le hd hm f x u a ha
        exact ⟨_, by simp only [hb, Option.bind_eq_bind, Option.bind_some], .cons (PieceLe.refl _) (.cons (PieceLe.refl _) hl)⟩
      | _ => exact ⟨ps, h, same ps⟩
    · simp only [ho, Bool.false_eq_true, if_false] at h ⊢
      simp only [Option.bind_eq_bind, Option.bind_eq_some_iff] at h
      obtain ⟨a, ha, he⟩ := h
      injection he with he
      subst he
      obtain ⟨b, hb, hl⟩ := valuePieces_le hd hm f x v a ha
      exact ⟨_, by simp only [hb, Option.bind_eq_bind, Option.bind_some], .cons (PieceLe.refl _) hl⟩
  · simp only [hx, Bool.false_eq_true, if_false] at h ⊢
    exact ⟨ps, h, same ps⟩

theorem fieldsIn_le (env : Env) : ∀ (fs : List Field) (vs : List Val), FnLe (fieldsIn dec fm env fs vs) (fieldsIn dec' gm env fs vs)
  | [], [] => fun _ _ h => h
  | f :: fs, v :: vs => by
    intro pos out h
    simp only [fieldsIn, Option.bind_eq_bind, Option.bind_eq_some_iff] at h ⊢
    obtain ⟨a, ha, b, hb, he⟩ := h
    exact ⟨a, field_le hd hm f _ v _ _ ha, b, fieldsIn_le env fs vs _ _ hb, he⟩
  | [], _ :: _ => fun _ _ h => by cases h
  | _ :: _, [] => fun _ _ h => by cases h

theorem fieldsPieces_le (env : Env) : ∀ (i : Nat) (fs : List Field) (vs : List Val) (ps : List Piece),
    fieldsPieces dec fm env i fs vs = some ps → ∃ qs, fieldsPieces dec' gm env i fs vs = some qs ∧ PiecesLe ps qs
  | i, [], [], ps, h => by
    injection h with h
    subst h
    exact ⟨[], rfl, .nil⟩
  | i, f :: fs, v :: vs, ps, h => by
    simp only [fieldsPieces, Option.bind_eq_bind, Option.bind_eq_some_iff] at h
    obtain ⟨a, ha, b, hb, he⟩ := h
    injection he with he
    subst he
    obtain ⟨a', ha', h1⟩ := fieldPieces_le hd hm f _ v a ha
    obtain ⟨b', hb', h2⟩ := fieldsPieces_le env (i + 1) fs vs b hb
    exact ⟨_, by simp only [fieldsPieces, ha', hb', Option.bind_eq_bind, Option.bind_some], append_le (lift_le h1 i) h2⟩
  | _, [], _ :: _, _, h => by cases h
  | _, _ :: _, [], _, h => by cases h

theorem fieldAt_le (fs : List Field) (i : Nat) (ps vs : List Val) : FnLe (fieldAt dec fm fs i ps vs) (fieldAt dec' gm fs i ps vs) := by
  intro pos out h
  simp only [fieldAt, Option.bind_eq_bind, Option.bind_eq_some_iff] at h ⊢
  obtain ⟨f, hf, v, hv, h⟩ := h
  exact ⟨f, hf, v, hv, field_le hd hm f _ v _ _ h⟩

theorem fieldPiecesAt_le (fs : List Field) (i : Nat) (ps vs : List Val) (as : List Piece)
    (h : fieldPiecesAt dec fm fs i ps vs = some as) : ∃ bs, fieldPiecesAt dec' gm fs i ps vs = some bs ∧ PiecesLe as bs := by
  simp only [fieldPiecesAt, Option.bind_eq_bind, Option.bind_eq_some_iff] at h
  obtain ⟨f, hf, v, hv, a, ha, he⟩ := h
  injection he with he
  subst he
  obtain ⟨b, hb, hl⟩ := fieldPieces_le hd hm f _ v a ha
  exact ⟨_, by simp only [fieldPiecesAt, hf, hv, hb, Option.bind_eq_bind, Option.bind_some], lift_le hl i⟩

omit hd in
theorem finite_le (f : Field) : fieldFinite fm f = fieldFinite gm f := by
  unfold fieldFinite
  cases f.arr with
  | some p => rfl
  | none =>
    cases f.ty with
    | prim k => rfl
    | comp n => exact (hm n).finite

theorem decl_le {b b' : Nat} (d : Decl) (hb : b = b' ∨ ∀ fs, d ≠ .union fs) : FmtLe (decl b dec fm d) (decl b' dec' gm d) := by
  have hfin : fieldFinite fm = fieldFinite gm := funext (finite_le hm)
  cases d with
  | struct fs =>
    refine ⟨?_, ?_, ?_⟩
    · intro v pos out h
      cases v with
      | obj t ps vs => exact fieldsIn_le hd hm _ fs vs _ _ h
      | _ => cases h
    · intro v as h
      cases v with
      | obj t ps vs => exact fieldsPieces_le hd hm _ 0 fs vs as h
      | _ => cases h
    · show fs.all (fieldFinite fm) = fs.all (fieldFinite gm)
      rw [hfin]
  | union fs =>
    obtain rfl : b = b' := hb.resolve_right fun h => h fs rfl
    refine ⟨?_, ?_, ?_⟩
    · intro v pos out h
      cases v with
      | obj t ps vs =>
        simp only [decl] at h ⊢
        split
        · rename_i ht
          rw [if_pos ht] at h
          simp only [Option.bind_eq_bind, Option.bind_eq_some_iff] at h ⊢
          obtain ⟨a, ha, c, hc, he⟩ := h
          exact ⟨a, ha, c, fieldAt_le hd hm _ _ _ _ _ _ hc, he⟩
        · rename_i ht
          rw [if_neg ht] at h
          exact h
      | _ => cases h
    · intro v as h
      cases v with
      | obj t ps vs =>
        simp only [decl] at h ⊢
        split
        · rename_i ht
          rw [if_pos ht] at h
          simp only [Option.bind_eq_bind, Option.bind_eq_some_iff] at h
          obtain ⟨a, ha, he⟩ := h
          injection he with he
          subst he
          obtain ⟨c, hc, hl⟩ := fieldPiecesAt_le hd hm _ _ _ _ a ha
          exact ⟨_, by simp only [hc, Option.bind_eq_bind, Option.bind_some], .cons (PieceLe.refl _) hl⟩
        · rename_i ht
          rw [if_neg ht] at h
          cases h
      | _ => cases h
    · show fs.all (fieldFinite fm) = fs.all (fieldFinite gm)
      rw [hfin]
  | choice sel cases dflt =>
    refine ⟨?_, ?_, ?_⟩
    · intro v pos out h
      cases v with
      | obj t ps vs =>
        simp only [decl] at h ⊢
        cases hc : chosen (sel ps) cases dflt with
        | none => rw [hc] at h; exact h
        | some i =>
          rw [hc] at h
          exact fieldAt_le hd hm _ _ _ _ _ _ h
      | _ => cases h
    · intro v as h
      cases v with
      | obj t ps vs =>
        simp only [decl] at h ⊢
        cases hc : chosen (sel ps) cases dflt with
        | none =>
          rw [hc] at h
          injection h with h
          subst h
          exact ⟨[], rfl, .nil⟩
        | some i =>
          rw [hc] at h
          exact fieldPiecesAt_le hd hm _ _ _ _ _ h
      | _ => cases h
    · show (choiceFields cases dflt).all (fieldFinite fm) = (choiceFields cases dflt).all (fieldFinite gm)
      rw [hfin]
  | enum k =>
    refine ⟨fun v _ _ h => h, fun v ps h => ?_, rfl⟩
    exact ⟨ps, h, PiecesLe_refl _⟩

omit hm in
/-- Formats with comparable decisions, and any tags if there are no unions. -/
theorem format_le {b b' : Nat} {schema : Nat → Decl} (hb : b = b' ∨ ∀ name fs, schema name ≠ .union fs) :
    ∀ n name, FmtLe (format b dec schema n name) (format b' dec' schema n name)
  | 0, _ => ⟨fun _ _ _ h => (by cases h), fun _ _ h => (by cases h), rfl⟩
  | n + 1, name => decl_le hd (format_le hb n) (schema name) (hb.imp id fun h => h name)

end le

end Verif.Wire
