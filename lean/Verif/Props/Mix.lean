import Verif.AstMix
import Verif.Props.Enum

/-!
# C32, C45: mixing numeric types
-/

namespace Verif

/-! ## Specification -/

/-- The signed integer types of zserio. -/
def signedName (name : String) : Bool :=
  ["int", "int8", "int16", "int32", "int64", "varint", "varint16", "varint32", "varint64"].contains name

def NType.isSigned (t : NType) : Bool := signedName t.name

/-- Number of bits of the values of an integer type. -/
def NType.valueBits (t : NType) : Nat :=
  if t.name = "int" ∨ t.name = "bit" ∨ t.name = "uint" then (if t.dyn then 64 else t.bits)
  else ((zserioIntBits.lookup t.name).map GoNum.width).getD 0

/-- The integer types a schema can name: bit fields of 1 to 64 bits, dynamic bit fields, and the named types. -/
def NType.IsInt (t : NType) : Prop :=
  (t.name ∈ ["int", "bit", "uint"] ∧ (t.dyn = true ∧ t.bits = 0 ∨ t.dyn = false ∧ 1 ≤ t.bits ∧ t.bits ≤ 64)) ∨
  (t.name ∈ zserioIntBits.map (·.1) ∧ t.bits = 0 ∧ t.dyn = false)

/-- The smallest width of a Go integer that has `r` bits. -/
def goWidthFor (r : Nat) : Nat := if r ≤ 8 then 8 else if r ≤ 16 then 16 else if r ≤ 32 then 32 else 64

theorem goWidthFor_ge (r : Nat) (h : r ≤ 64) : r ≤ goWidthFor r := by unfold goWidthFor; split_ifs <;> omega

theorem goWidthFor_mono {a b : Nat} (h : a ≤ b) : goWidthFor a ≤ goWidthFor b := by unfold goWidthFor; split_ifs <;> omega

theorem goBits_getD (b : Nat) (h : 1 ≤ b) : (goBits b).getD 64 = goWidthFor b := by
  unfold goBits goWidthFor; split_ifs <;> simp_all

/-- Everything the mixing functions look at, for each integer type. -/
structure IntFacts (t : NType) (r w : Nat) : Prop where
  rank : getIntegerTypeRank t = .ok r
  le : r ≤ 64
  value : t.valueBits ≤ r
  exact : t.valueBits = r ∨ r = 64
  go : goIntType t = some ⟨t.isSigned, w⟩
  signed : (signedToUnsigned.lookup t.name).isSome = t.isSigned
  width : w = goWidthFor r ∨ (t = ⟨"varsize", 0, false⟩ ∧ r = 31 ∧ w = 64)
  unsigned : t.isSigned = true → ∃ t', makeUnsigned t = .ok t' ∧ t'.IsInt ∧ goIntType t' = some ⟨false, w⟩ ∧ t' ≠ ⟨"varsize", 0, false⟩

theorem intFacts (t : NType) (h : t.IsInt) : ∃ r w, IntFacts t r w := by
  obtain ⟨name, bits, dyn⟩ := t
  rcases h with ⟨hn, hb⟩ | ⟨hn, hb, hd⟩
  · simp only at hn hb
    rcases hb with ⟨rfl, rfl⟩ | ⟨rfl, h1, h2⟩
    · simp only [List.mem_cons, List.not_mem_nil, or_false] at hn
      rcases hn with rfl | rfl | rfl
      · exact ⟨64, 64, rfl, by omega, by decide +kernel, by decide +kernel, by decide +kernel, by decide +kernel, .inl rfl, fun _ =>
          ⟨⟨"bit", 0, true⟩, rfl, .inl (by decide), by decide +kernel, by decide⟩⟩
      · exact ⟨64, 64, rfl, by omega, by decide +kernel, by decide +kernel, by decide +kernel, by decide +kernel, .inl rfl,
          fun hc => absurd hc (by decide +kernel)⟩
      · exact ⟨64, 64, rfl, by omega, by decide +kernel, by decide +kernel, by decide +kernel, by decide +kernel, .inl rfl,
          fun hc => absurd hc (by decide +kernel)⟩
    · have hr : ∀ n : String, getIntegerTypeRank ⟨n, bits, false⟩ = .ok bits := by
        intro n; simp [getIntegerTypeRank, show bits ≠ 0 by omega]
      have hw := goBits_getD bits h1
      simp only [List.mem_cons, List.not_mem_nil, or_false] at hn
      rcases hn with rfl | rfl | rfl
      · refine ⟨bits, goWidthFor bits, hr _, h2, by simp [NType.valueBits], .inl (by simp [NType.valueBits]), ?_,
        (by decide +kernel : (signedToUnsigned.lookup "int").isSome = signedName "int"), .inl rfl, fun _ =>
          ⟨⟨"bit", bits, false⟩, rfl, .inl ⟨by simp, .inr ⟨rfl, h1, h2⟩⟩, ?_, by simp⟩⟩
        · simp [goIntType, goBitFieldType, hw, NType.isSigned, signedName]
        · simp [goIntType, goBitFieldType, hw]
      · refine ⟨bits, goWidthFor bits, hr _, h2, by simp [NType.valueBits], .inl (by simp [NType.valueBits]), ?_,
        (by decide +kernel : (signedToUnsigned.lookup "bit").isSome = signedName "bit"), .inl rfl,
          fun hc => absurd hc (by simp [NType.isSigned, signedName])⟩
        simp [goIntType, goBitFieldType, hw, NType.isSigned, signedName]
      · refine ⟨bits, goWidthFor bits, hr _, h2, by simp [NType.valueBits], .inl (by simp [NType.valueBits]), ?_,
        (by decide +kernel : (signedToUnsigned.lookup "uint").isSome = signedName "uint"), .inl rfl,
          fun hc => absurd hc (by simp [NType.isSigned, signedName])⟩
        simp [goIntType, goBitFieldType, hw, NType.isSigned, signedName]
  · simp only at hn hb hd
    subst hb hd
    simp only [zserioIntBits, List.map_cons, List.map_nil, List.mem_cons, List.not_mem_nil, or_false] at hn
    rcases hn with h | h | h | h | h | h | h | h | h | h | h | h | h | h | h | h | h <;> subst h
    · exact ⟨8, 8, rfl, by omega, by decide +kernel, by decide +kernel, by decide +kernel, by decide +kernel, .inl rfl, fun _ =>
        ⟨⟨"uint8", 0, false⟩, rfl, .inr (by decide +kernel), by decide +kernel, by decide⟩⟩
    · exact ⟨16, 16, rfl, by omega, by decide +kernel, by decide +kernel, by decide +kernel, by decide +kernel, .inl rfl, fun _ =>
        ⟨⟨"uint16", 0, false⟩, rfl, .inr (by decide +kernel), by decide +kernel, by decide⟩⟩
    · exact ⟨32, 32, rfl, by omega, by decide +kernel, by decide +kernel, by decide +kernel, by decide +kernel, .inl rfl, fun _ =>
        ⟨⟨"uint32", 0, false⟩, rfl, .inr (by decide +kernel), by decide +kernel, by decide⟩⟩
    · exact ⟨64, 64, rfl, by omega, by decide +kernel, by decide +kernel, by decide +kernel, by decide +kernel, .inl rfl, fun _ =>
        ⟨⟨"uint64", 0, false⟩, rfl, .inr (by decide +kernel), by decide +kernel, by decide⟩⟩
    · exact ⟨8, 8, rfl, by omega, by decide +kernel, by decide +kernel, by decide +kernel, by decide +kernel, .inl rfl,
        fun hc => absurd hc (by decide +kernel)⟩
    · exact ⟨16, 16, rfl, by omega, by decide +kernel, by decide +kernel, by decide +kernel, by decide +kernel, .inl rfl,
        fun hc => absurd hc (by decide +kernel)⟩
    · exact ⟨32, 32, rfl, by omega, by decide +kernel, by decide +kernel, by decide +kernel, by decide +kernel, .inl rfl,
        fun hc => absurd hc (by decide +kernel)⟩
    · exact ⟨64, 64, rfl, by omega, by decide +kernel, by decide +kernel, by decide +kernel, by decide +kernel, .inl rfl,
        fun hc => absurd hc (by decide +kernel)⟩
    · exact ⟨15, 16, rfl, by omega, by decide +kernel, by decide +kernel, by decide +kernel, by decide +kernel, .inl rfl, fun _ =>
        ⟨⟨"varuint16", 0, false⟩, rfl, .inr (by decide +kernel), by decide +kernel, by decide⟩⟩
    · exact ⟨29, 32, rfl, by omega, by decide +kernel, by decide +kernel, by decide +kernel, by decide +kernel, .inl rfl, fun _ =>
        ⟨⟨"varuint32", 0, false⟩, rfl, .inr (by decide +kernel), by decide +kernel, by decide⟩⟩
    · exact ⟨57, 64, rfl, by omega, by decide +kernel, by decide +kernel, by decide +kernel, by decide +kernel, .inl rfl, fun _ =>
        ⟨⟨"varuint64", 0, false⟩, rfl, .inr (by decide +kernel), by decide +kernel, by decide⟩⟩
    · exact ⟨64, 64, rfl, by omega, by decide +kernel, by decide +kernel, by decide +kernel, by decide +kernel, .inl rfl, fun _ =>
        ⟨⟨"varuint", 0, false⟩, rfl, .inr (by decide +kernel), by decide +kernel, by decide⟩⟩
    · exact ⟨15, 16, rfl, by omega, by decide +kernel, by decide +kernel, by decide +kernel, by decide +kernel, .inl rfl,
        fun hc => absurd hc (by decide +kernel)⟩
    · exact ⟨29, 32, rfl, by omega, by decide +kernel, by decide +kernel, by decide +kernel, by decide +kernel, .inl rfl,
        fun hc => absurd hc (by decide +kernel)⟩
    · exact ⟨64, 64, rfl, by omega, by decide +kernel, by decide +kernel, by decide +kernel, by decide +kernel, .inl rfl,
        fun hc => absurd hc (by decide +kernel)⟩
    · exact ⟨64, 64, rfl, by omega, by decide +kernel, by decide +kernel, by decide +kernel, by decide +kernel, .inl rfl,
        fun hc => absurd hc (by decide +kernel)⟩
    · exact ⟨31, 64, rfl, by omega, by decide +kernel, by decide +kernel, by decide +kernel, by decide +kernel, .inr ⟨rfl, rfl, rfl⟩,
        fun hc => absurd hc (by decide +kernel)⟩

/-! ## C32: integers -/

theorem sameNType_eq {a b : NType} (h : sameNType (some a) (some b) = true) : a = b := by
  obtain ⟨n, m, d⟩ := a
  obtain ⟨n', m', d'⟩ := b
  simp only [sameNType, Bool.and_eq_true, decide_eq_true_eq, Bool.not_eq_true'] at h
  obtain ⟨⟨⟨rfl, rfl⟩, rfl⟩, rfl⟩ := h
  rfl

/-- The result of mixing two integer types, in terms of their facts. -/
theorem mixInt2_facts (a b : NType) (ra wa rb wb : Nat) (ha : IntFacts a ra wa) (hb : IntFacts b rb wb) (hai : a.IsInt)
    (hbi : b.IsInt) : ∃ t, mixInt2 a b = .ok t ∧ t.IsInt ∧
      goIntType t = some ⟨a.isSigned && b.isSigned, if rb ≤ ra then wa else wb⟩ := by
  simp only [mixInt2, ha.rank, hb.rank, ha.signed, hb.signed]
  show ∃ t, (if rb ≤ ra then _ else _) = _ ∧ _
  by_cases hr : rb ≤ ra
  · simp only [if_pos hr]
    by_cases hs : a.isSigned = (a.isSigned && b.isSigned)
    · simp only [if_pos hs]
      exact ⟨a, rfl, hai, by rw [ha.go]; rw [← hs]⟩
    · simp only [if_neg hs]
      cases h1 : a.isSigned <;> cases h2 : b.isSigned <;> simp [h1, h2] at hs
      obtain ⟨t', h3, h4, h5, _⟩ := ha.unsigned h1
      exact ⟨t', h3, h4, by simpa using h5⟩
  · simp only [if_neg hr]
    by_cases hs : b.isSigned = (a.isSigned && b.isSigned)
    · simp only [if_pos hs]
      exact ⟨b, rfl, hbi, by rw [hb.go]; rw [← hs]⟩
    · simp only [if_neg hs]
      cases h1 : a.isSigned <;> cases h2 : b.isSigned <;> simp [h1, h2] at hs
      obtain ⟨t', h3, h4, h5, _⟩ := hb.unsigned h2
      exact ⟨t', h3, h4, by simpa using h5⟩

theorem mixTypes_int (a b : NType) (h : sameNType (some a) (some b) = false) :
    mixTypes ⟨.integer, some a⟩ ⟨.integer, some b⟩ = (mixInt2 a b).map fun t => ⟨.integer, some t⟩ := by
  simp only [mixTypes, h, Bool.false_eq_true, and_false, if_false, ne_eq, not_true_eq_false, or_self, reduceCtorEq, mixInt]
  cases mixInt2 a b <;> rfl

theorem IntFacts.le_width {t : NType} {r w : Nat} (h : IntFacts t r w) : r ≤ w := by
  rcases h.width with h1 | ⟨_, h1, h2⟩
  · rw [h1]; exact goWidthFor_ge _ h.le
  · omega

theorem IntFacts.for_le {t : NType} {r w : Nat} (h : IntFacts t r w) : goWidthFor r ≤ w := by
  rcases h.width with h1 | ⟨_, h1, h2⟩
  · omega
  · subst h1 h2; decide

/-- C32: two integer operands.  The result is an integer type, unsigned if one of the operands is, and its Go type has
at least as many bits as the values of both operands. -/
theorem C32_integer_result (a b : NType) (ha : a.IsInt) (hb : b.IsInt) :
    ∃ t g, mixTypes ⟨.integer, some a⟩ ⟨.integer, some b⟩ = .ok ⟨.integer, some t⟩ ∧ t.IsInt ∧ goIntType t = some g ∧
      g.signed = (a.isSigned && b.isSigned) ∧ a.valueBits ≤ g.width ∧ b.valueBits ≤ g.width := by
  obtain ⟨ra, wa, fa⟩ := intFacts a ha
  obtain ⟨rb, wb, fb⟩ := intFacts b hb
  have va := fa.value; have vb := fb.value
  have la := fa.le_width; have lb := fb.le_width
  cases hs : sameNType (some a) (some b) with
  | true =>
    have := sameNType_eq hs
    subst this
    refine ⟨a, _, ?_, ha, fa.go, by simp, by dsimp only; omega, by dsimp only; omega⟩
    simp [mixTypes, hs]
  | false =>
    obtain ⟨t, h1, h2, h3⟩ := mixInt2_facts a b ra wa rb wb fa fb ha hb
    refine ⟨t, _, by rw [mixTypes_int _ _ hs, h1]; rfl, h2, h3, rfl, ?_, ?_⟩
    · dsimp only; split <;> omega
    · dsimp only; split <;> omega

/-- C32: the order of two integer operands does not matter for sign and width of the Go type of the result, unless one
is `varsize` and the other has 31 bits. -/
theorem C32_integer_symmetric_partial (a b : NType) (ha : a.IsInt) (hb : b.IsInt)
    (hv : ¬ (a.name = "varsize" ∧ b.valueBits = 31)) (hv' : ¬ (b.name = "varsize" ∧ a.valueBits = 31)) :
    ∃ t t' g, mixTypes ⟨.integer, some a⟩ ⟨.integer, some b⟩ = .ok ⟨.integer, some t⟩ ∧
      mixTypes ⟨.integer, some b⟩ ⟨.integer, some a⟩ = .ok ⟨.integer, some t'⟩ ∧ goIntType t = some g ∧ goIntType t' = some g := by
  obtain ⟨ra, wa, fa⟩ := intFacts a ha
  obtain ⟨rb, wb, fb⟩ := intFacts b hb
  cases hs : sameNType (some a) (some b) with
  | true =>
    have := sameNType_eq hs
    subst this
    exact ⟨a, a, _, by simp [mixTypes, hs], by simp [mixTypes, hs], fa.go, fa.go⟩
  | false =>
    have hs' : sameNType (some b) (some a) = false := by
      cases hq : sameNType (some b) (some a) with
      | false => rfl
      | true =>
        have := sameNType_eq hq
        subst this
        rw [hq] at hs; cases hs
    obtain ⟨t, h1, _, h3⟩ := mixInt2_facts a b ra wa rb wb fa fb ha hb
    obtain ⟨t', k1, _, k3⟩ := mixInt2_facts b a rb wb ra wa fb fa hb ha
    refine ⟨t, t', _, by rw [mixTypes_int _ _ hs, h1]; rfl, by rw [mixTypes_int _ _ hs', k1]; rfl, h3, ?_⟩
    rw [k3, Bool.and_comm]
    congr 2
    by_cases he : ra = rb
    · subst he
      simp only [le_refl, if_true]
      rcases fa.width with p | ⟨p1, p2, p3⟩ <;> rcases fb.width with q | ⟨q1, q2, q3⟩
      · rw [p, q]
      · have := fa.exact
        exact absurd ⟨by rw [q1], by omega⟩ hv'
      · have := fb.exact
        exact absurd ⟨by rw [p1], by omega⟩ hv
      · omega
    · by_cases hl : rb ≤ ra
      · rw [if_pos hl, if_neg (by omega)]
      · rw [if_neg hl, if_pos (by omega)]

/-- C32: with `varsize` and a 31 bit type the width of the Go type depends on the order of the operands. -/
theorem C32_violated_order :
    (mixTypes ⟨.integer, some ⟨"varsize", 0, false⟩⟩ ⟨.integer, some ⟨"bit", 31, false⟩⟩).map (·.type.bind goIntType) =
      .ok (some ⟨false, 64⟩) ∧
    (mixTypes ⟨.integer, some ⟨"bit", 31, false⟩⟩ ⟨.integer, some ⟨"varsize", 0, false⟩⟩).map (·.type.bind goIntType) =
      .ok (some ⟨false, 32⟩) := ⟨by rfl, by rfl⟩

/-- C32: a literal takes the type of the other operand, on either side. -/
theorem C32_literal (a : NType) :
    mixTypes ⟨.integer, none⟩ ⟨.integer, some a⟩ = .ok ⟨.integer, some a⟩ ∧
    mixTypes ⟨.integer, some a⟩ ⟨.integer, none⟩ = .ok ⟨.integer, some a⟩ ∧
    mixTypes ⟨.integer, none⟩ ⟨.integer, none⟩ = .ok ⟨.integer, none⟩ := ⟨rfl, rfl, rfl⟩

example : NType.IsInt ⟨"int", 12, false⟩ ∧ NType.IsInt ⟨"uint8", 0, false⟩ ∧
    mixTypes ⟨.integer, some ⟨"int", 12, false⟩⟩ ⟨.integer, some ⟨"uint8", 0, false⟩⟩ =
      .ok ⟨.integer, some ⟨"bit", 12, false⟩⟩ :=
  ⟨.inl (by decide), .inr (by decide +kernel), by rfl⟩

/-! ## C32: floats -/

/-- The float types and their widths. -/
inductive IsFloat : NType → Nat → Prop
  | f16 : IsFloat ⟨"float16", 0, false⟩ 16
  | f32 : IsFloat ⟨"float32", 0, false⟩ 32
  | f64 : IsFloat ⟨"float64", 0, false⟩ 64

/-- C32: two floats.  The result is the wider one, whatever the order. -/
theorem C32_float_float (a b : NType) (wa wb : Nat) (ha : IsFloat a wa) (hb : IsFloat b wb) :
    ∃ t, mixTypes ⟨.float, some a⟩ ⟨.float, some b⟩ = .ok ⟨.float, some t⟩ ∧
      mixTypes ⟨.float, some b⟩ ⟨.float, some a⟩ = .ok ⟨.float, some t⟩ ∧ IsFloat t (max wa wb) := by
  cases ha <;> cases hb
  · exact ⟨_, rfl, rfl, .f16⟩
  · exact ⟨_, rfl, rfl, .f32⟩
  · exact ⟨_, rfl, rfl, .f64⟩
  · exact ⟨_, rfl, rfl, .f32⟩
  · exact ⟨_, rfl, rfl, .f32⟩
  · exact ⟨_, rfl, rfl, .f64⟩
  · exact ⟨_, rfl, rfl, .f64⟩
  · exact ⟨_, rfl, rfl, .f64⟩
  · exact ⟨_, rfl, rfl, .f64⟩

theorem IsInt.not_float {t : NType} (h : t.IsInt) : t.name ≠ "float64" ∧ t.name ≠ "float32" ∧ t.name ≠ "float16" := by
  have : t.name ∈ ["int", "bit", "uint"] ++ zserioIntBits.map (·.1) := by
    rcases h with ⟨h, _⟩ | ⟨h, _⟩
    · exact List.mem_append_left _ h
    · exact List.mem_append_right _ h
  refine ⟨?_, ?_, ?_⟩ <;> intro hc <;> rw [hc] at this <;> revert this <;> decide +kernel

/-- C32: a float and an integer, of any integer type or a literal.  The result is the float type, whatever the order. -/
theorem C32_float_integer (a : NType) (wa : Nat) (ha : IsFloat a wa) (b : Option NType) (hb : ∀ t, b = some t → t.IsInt) :
    mixTypes ⟨.float, some a⟩ ⟨.integer, b⟩ = .ok ⟨.float, some a⟩ ∧
      mixTypes ⟨.integer, b⟩ ⟨.float, some a⟩ = .ok ⟨.float, some a⟩ := by
  cases b with
  | none => cases ha <;> exact ⟨rfl, rfl⟩
  | some b =>
    obtain ⟨h1, h2, h3⟩ := IsInt.not_float (hb b rfl)
    have hs : ∀ n : String, (n = "float64" ∨ n = "float32" ∨ n = "float16") → sameNType (some ⟨n, 0, false⟩) (some b) = false ∧
        sameNType (some b) (some ⟨n, 0, false⟩) = false := by
      intro n hn
      have : n ≠ b.name := by rcases hn with rfl | rfl | rfl <;> exact fun h => by simp_all
      exact ⟨by simp [sameNType, this], by simp [sameNType, Ne.symm this]⟩
    cases ha
    · obtain ⟨p, q⟩ := hs "float16" (by simp)
      exact ⟨by simp [mixTypes, mixFloat, p, h1, h2, Except.map], by simp [mixTypes, mixFloat, q, h1, h2, Except.map]⟩
    · obtain ⟨p, q⟩ := hs "float32" (by simp)
      exact ⟨by simp [mixTypes, mixFloat, p, h1, Except.map], by simp [mixTypes, mixFloat, q, h1, Except.map]⟩
    · obtain ⟨p, q⟩ := hs "float64" (by simp)
      exact ⟨by simp [mixTypes, mixFloat, p, Except.map], by simp [mixTypes, mixFloat, q, Except.map]⟩

/-- C32: an operand that is neither integer nor float, with one of another kind, is rejected in both orders. -/
theorem C32_other_kinds (a b : Operand) (hk : a.kind ≠ b.kind) (ha : a.kind ≠ .integer) (haf : a.kind ≠ .float) (hb : b.kind ≠ .float) :
    (∃ m, mixTypes a b = .error m) ∧ ∃ m, mixTypes b a = .error m :=
  ⟨⟨_, by rw [mixTypes, if_neg (by simp [hk]), if_neg (by simp [haf, hb]), if_pos (.inl ha)]⟩,
   ⟨_, by rw [mixTypes, if_neg (by simp [hk.symm]), if_neg (by simp [haf, hb]), if_pos (.inr ha)]⟩⟩

/-- C32: two operands of one kind, neither with a type, as two literals: the result is of the kind, without a type. -/
theorem C32_literals (k : EKind) : mixTypes ⟨k, none⟩ ⟨k, none⟩ = .ok ⟨k, none⟩ := by
  simp [mixTypes, sameNType]

example : IsFloat ⟨"float32", 0, false⟩ 32 ∧ mixTypes ⟨.float, some ⟨"float32", 0, false⟩⟩ ⟨.integer, some ⟨"int64", 0, false⟩⟩ =
    .ok ⟨.float, some ⟨"float32", 0, false⟩⟩ := ⟨.f32, by rfl⟩

/-! ## C45: from the source text -/

/-- C45: the type reference of `int:n`, `bit:n` or `uint:n` as read from a schema has a Go type of the right sign that
holds `n` bits, and is the smallest. -/
theorem C45_source (name : String) (hn : name ∈ ["int", "bit", "uint"]) (n : Nat) (h1 : 1 ≤ n) (h2 : n ≤ 64) :
    goIntType (visitBitField name n) = some ⟨name == "int", goWidthFor n⟩ ∧ n ≤ goWidthFor n := by
  refine ⟨?_, goWidthFor_ge _ h2⟩
  simp only [List.mem_cons, List.not_mem_nil, or_false] at hn
  have h : ∀ m : Fin 65, 1 ≤ m.val → goIntType (visitBitField "int" m) = some ⟨true, goWidthFor m⟩ ∧
      goIntType (visitBitField "bit" m) = some ⟨false, goWidthFor m⟩ ∧
      goIntType (visitBitField "uint" m) = some ⟨false, goWidthFor m⟩ := by decide +kernel
  obtain ⟨p, q, r⟩ := h ⟨n, by omega⟩ h1
  rcases hn with rfl | rfl | rfl
  · exact p
  · exact q
  · exact r

/-- C45: `int:n`, `uint:n` and `bit:n` of 8, 16, 32 or 64 bits are the types `intn` and `uintn`, so a schema may use either
spelling. -/
theorem C45_spelling (n : Nat) (h : n ∈ [8, 16, 32, 64]) :
    visitBitField "int" n = ⟨"int" ++ toString n, 0, false⟩ ∧ visitBitField "uint" n = ⟨"uint" ++ toString n, 0, false⟩ ∧
      visitBitField "bit" n = ⟨"uint" ++ toString n, 0, false⟩ := by
  simp only [List.mem_cons, List.not_mem_nil, or_false] at h
  rcases h with rfl | rfl | rfl | rfl <;> decide +kernel

/-- C45: a number of bits that is not that of a type of its own is kept. -/
theorem C45_bits_kept (name : String) (n : Nat) (h : n ≤ 255) (hn : n ∉ [8, 16, 32, 64]) :
    visitBitField name n = ⟨name, n, false⟩ := by
  simp only [List.mem_cons, List.not_mem_nil, or_false] at hn
  simp only [visitBitField, Nat.min_eq_left h, if_neg hn]

example : visitBitField "bit" 16 = ⟨"uint16", 0, false⟩ ∧ visitBitField "int" 12 = ⟨"int", 12, false⟩ :=
  ⟨(C45_spelling 16 (by decide)).2.2, C45_bits_kept "int" 12 (by decide) (by decide)⟩

end Verif
