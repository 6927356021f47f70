import Verif.AstEnum
import Verif.Elem
import Mathlib.Tactic.Ring
import Mathlib.Tactic.Linarith
import Mathlib.Tactic.NormNum

/-!
# C30, C31, C45: enum values, bitmask values, Go types of bit fields
-/

namespace Verif

/-! ## Both evaluation loops at once -/

/-- What `enumValue` and `bitmaskValue` have in common. -/
def itemValue (first : BitVec 64) (next : BitVec 64 → BitVec 64) (prev : Option ERes) (i : EItem) : Except String ERes :=
  match i.expr, prev with
  | none, none => .ok (.int first)
  | none, some (.int v) => .ok (.int (next v))
  | none, some .other => .error (missingEnumValue i.name)
  | some e, _ => e

/-- What `enumLoop` and `bitmaskLoop` have in common. -/
def itemLoop (first : BitVec 64) (next : BitVec 64 → BitVec 64) : Option ERes → List EItem → Except String (List EItem)
  | _, [] => .ok []
  | prev, i :: is => do
    let r ← itemValue first next prev i
    let rest ← itemLoop first next (some r) is
    pure ({ i with expr := some (.ok r) } :: rest)

theorem enumLoop_eq (p : Option ERes) (is : List EItem) : enumLoop p is = itemLoop 0#64 (· + 1#64) p is := by
  induction is generalizing p with
  | nil => rfl
  | cons i is ih =>
    have : enumValue p i = itemValue 0#64 (· + 1#64) p i := by
      obtain ⟨n, _ | e⟩ := i <;> rcases p with _ | (v | _) <;> rfl
    simp only [enumLoop, itemLoop, ih, this]

theorem bitmaskLoop_eq (p : Option ERes) (is : List EItem) : bitmaskLoop p is = itemLoop 1#64 findNextFreeBit p is := by
  induction is generalizing p with
  | nil => rfl
  | cons i is ih =>
    have : bitmaskValue p i = itemValue 1#64 findNextFreeBit p i := by
      obtain ⟨n, _ | e⟩ := i <;> rcases p with _ | (v | _) <;> rfl
    simp only [bitmaskLoop, itemLoop, ih, this]

/-- Specification of an evaluated declaration: every item keeps its name and its explicit value; an implicit one gets
`first` at the head of the list and `next` of the value before otherwise.  `vals` are the values of the items. -/
structure ItemSpec (first : BitVec 64) (next : BitVec 64 → BitVec 64) (items : List EItem) (vals : List ERes) : Prop where
  length : vals.length = items.length
  explicit : ∀ (i : Nat) (e : Except String ERes), (items[i]?).map EItem.expr = some (some e) → ∃ r, e = .ok r ∧ vals[i]? = some r
  head : (items[0]?).map EItem.expr = some none → vals[0]? = some (.int first)
  succ : ∀ i : Nat, (items[i + 1]?).map EItem.expr = some none → ∃ v, vals[i]? = some (.int v) ∧ vals[i + 1]? = some (.int (next v))

/-- The items of a declaration with the values filled in. -/
def fillIn : List EItem → List ERes → List EItem
  | i :: is, r :: rs => { i with expr := some (.ok r) } :: fillIn is rs
  | _, _ => []

/-- The value of an implicit item at the head of the list, after a value `p`. -/
def HeadSpec (first : BitVec 64) (next : BitVec 64 → BitVec 64) (p : Option ERes) (r : Option ERes) : Prop :=
  match p with
  | none => r = some (.int first)
  | some (.int v) => r = some (.int (next v))
  | some .other => False

/-- `ItemSpec` for a list that follows on a value `p`. -/
def LoopSpec (first : BitVec 64) (next : BitVec 64 → BitVec 64) (p : Option ERes) (is out : List EItem) : Prop :=
  ∃ vals : List ERes, out = fillIn is vals ∧ vals.length = is.length ∧
    (∀ (i : Nat) (e : Except String ERes), (is[i]?).map EItem.expr = some (some e) → ∃ r, e = .ok r ∧ vals[i]? = some r) ∧
    ((is[0]?).map EItem.expr = some none → HeadSpec first next p vals[0]?) ∧
    (∀ i : Nat, (is[i + 1]?).map EItem.expr = some none →
      ∃ v, vals[i]? = some (.int v) ∧ vals[i + 1]? = some (.int (next v)))

theorem itemLoop_ok (first : BitVec 64) (next : BitVec 64 → BitVec 64) (p : Option ERes) (is out : List EItem)
    (h : itemLoop first next p is = .ok out) :
    LoopSpec first next p is out := by
  induction is generalizing p out with
  | nil =>
    simp only [itemLoop, Except.ok.injEq] at h
    exact ⟨[], by simp [← h, fillIn], rfl, by simp, by simp, by simp⟩
  | cons i is ih =>
    simp only [itemLoop, itemValue] at h
    -- the value of the first item
    have key : ∀ r : ERes, (do
        let rest ← itemLoop first next (some r) is
        pure ({ i with expr := some (.ok r) } :: rest) : Except String (List EItem)) = .ok out →
        (∀ e, i.expr = some e → e = .ok r) →
        (i.expr = none → HeadSpec first next p (some r)) → LoopSpec first next p (i :: is) out := by
      intro r hr he hn
      cases hl : itemLoop first next (some r) is with
      | error e => rw [hl] at hr; cases hr
      | ok rest =>
        rw [hl] at hr
        cases hr
        obtain ⟨vals, h1, h2, h3, h4, h5⟩ := ih _ _ hl
        refine ⟨r :: vals, ?_, ?_, ?_, ?_, ?_⟩
        · simp [fillIn, h1]
        · simp [h2]
        · intro j e hj
          cases j with
          | zero => exact ⟨r, he e (by simpa using hj), rfl⟩
          | succ j => simpa using h3 j e (by simpa using hj)
        · intro hz
          exact hn (by simpa using hz)
        · intro j hj
          cases j with
          | zero =>
            have := h4 (by simpa using hj)
            rcases r with v | _
            · exact ⟨v, rfl, by simpa [HeadSpec] using this⟩
            · exact this.elim
          | succ j => simpa using h5 j (by simpa using hj)
    rcases hi : i.expr with _ | e
    · rw [hi] at h key
      rcases p with _ | (v | _)
      · exact key _ h (by simp) (by simp [HeadSpec])
      · exact key _ h (by simp) (by simp [HeadSpec])
      · cases h
    · rw [hi] at h key
      cases e with
      | error e => cases h
      | ok r => exact key r h (by simp) (by simp)

theorem itemLoop_error (first : BitVec 64) (next : BitVec 64 → BitVec 64) (p : Option ERes) (is : List EItem) :
    (∃ msg, itemLoop first next p is = .error msg) ↔
      (∃ (i : Nat) (msg : String), (is[i]?).map EItem.expr = some (some (.error msg))) ∨
      (p = some .other ∧ (is[0]?).map EItem.expr = some none) ∨
      (∃ i : Nat, (is[i]?).map EItem.expr = some (some (.ok .other)) ∧ (is[i + 1]?).map EItem.expr = some none) := by
  induction is generalizing p with
  | nil => simp [itemLoop]
  | cons i is ih =>
    -- once the value of the first item is known
    have key : ∀ r : ERes, (∀ e, i.expr = some e → e = .ok r) → (i.expr = none → p ≠ some .other) →
        (r = .other → i.expr = some (.ok .other)) →
        ((∃ msg, (do
          let rest ← itemLoop first next (some r) is
          pure ({ i with expr := some (.ok r) } :: rest) : Except String (List EItem)) = .error msg) ↔
        (∃ (j : Nat) (msg : String), ((i :: is)[j]?).map EItem.expr = some (some (.error msg))) ∨
        (p = some .other ∧ ((i :: is)[0]?).map EItem.expr = some none) ∨
        (∃ j : Nat, ((i :: is)[j]?).map EItem.expr = some (some (.ok .other)) ∧
          ((i :: is)[j + 1]?).map EItem.expr = some none)) := by
      intro r he hn ho
      have hred : (∃ msg, (do
          let rest ← itemLoop first next (some r) is
          pure ({ i with expr := some (.ok r) } :: rest) : Except String (List EItem)) = .error msg) ↔
          ∃ msg, itemLoop first next (some r) is = .error msg := by
        cases itemLoop first next (some r) is with
        | error e => exact ⟨fun _ => ⟨e, rfl⟩, fun _ => ⟨e, rfl⟩⟩
        | ok v => constructor <;> rintro ⟨m, hm⟩ <;> cases hm
      rw [hred, ih]
      constructor
      · rintro (⟨j, m, hj⟩ | ⟨hr, hz⟩ | ⟨j, hj⟩)
        · exact .inl ⟨j + 1, m, by simpa using hj⟩
        · refine .inr (.inr ⟨0, ?_, by simpa using hz⟩)
          simpa using ho (by simpa using hr)
        · exact .inr (.inr ⟨j + 1, by simpa using hj⟩)
      · rintro (⟨j, m, hj⟩ | ⟨hp, hz⟩ | ⟨j, hj1, hj2⟩)
        · cases j with
          | zero => have := he _ (by simpa using hj); cases this
          | succ j => exact .inl ⟨j, m, by simpa using hj⟩
        · exact absurd hp (hn (by simpa using hz))
        · cases j with
          | zero =>
            have := he _ (by simpa using hj1)
            cases this
            exact .inr (.inl ⟨rfl, by simpa using hj2⟩)
          | succ j => exact .inr (.inr ⟨j, by simpa using hj1, by simpa using hj2⟩)
    simp only [itemLoop, itemValue]
    rcases hi : i.expr with _ | e
    · rw [hi] at key
      rcases p with _ | (v | _)
      · exact key _ (by simp) (by simp) (by simp)
      · exact key _ (by simp) (by simp) (by simp)
      · constructor
        · intro _; exact .inr (.inl ⟨rfl, by simp [hi]⟩)
        · intro _; exact ⟨_, rfl⟩
    · rw [hi] at key
      cases e with
      | error e =>
        constructor
        · intro _; exact .inl ⟨0, e, by simp [hi]⟩
        · intro _; exact ⟨e, rfl⟩
      | ok r => exact key r (by simp) (by simp) (by rintro rfl; rfl)

theorem fillIn_again (first : BitVec 64) (next : BitVec 64 → BitVec 64) (p : Option ERes) (is : List EItem) (rs : List ERes) :
    itemLoop first next p (fillIn is rs) = .ok (fillIn is rs) := by
  induction is generalizing rs p with
  | nil => simp [fillIn, itemLoop]
  | cons i is ih =>
    cases rs with
    | nil => simp [fillIn, itemLoop]
    | cons r rs =>
      simp only [fillIn, itemLoop, itemValue]
      show (do
        let rest ← itemLoop first next (some r) (fillIn is rs)
        pure ({ i with expr := some (.ok r) } :: rest) : Except String (List EItem)) = _
      rw [ih]; rfl

/-! ## C30 -/

/-- C30: values of enum items.  If the declaration is accepted, then every explicit item has its value, an implicit first
item is 0, and any other implicit item is one more (as an int64) than the item before it. -/
theorem C30_enum_values (items out : List EItem) (h : enumEvaluate items = .ok out) :
    ∃ vals, out = fillIn items vals ∧ ItemSpec 0#64 (· + 1#64) items vals := by
  rw [enumEvaluate, enumLoop_eq] at h
  obtain ⟨vals, h1, h2, h3, h4, h5⟩ := itemLoop_ok _ _ _ _ _ h
  exact ⟨vals, h1, h2, h3, h4, h5⟩

/-- C30: the declaration is rejected exactly if an explicit value is erroneous or an implicit item follows an item whose
value is not an integer. -/
theorem C30_enum_rejects (items : List EItem) :
    (∃ msg, enumEvaluate items = .error msg) ↔
      (∃ (i : Nat) (msg : String), (items[i]?).map EItem.expr = some (some (.error msg))) ∨
      (∃ i : Nat, (items[i]?).map EItem.expr = some (some (.ok .other)) ∧ (items[i + 1]?).map EItem.expr = some none) := by
  rw [enumEvaluate, enumLoop_eq, itemLoop_error]
  simp

/-- C30: evaluating a second time changes nothing. -/
theorem C30_enum_idempotent (items out : List EItem) (h : enumEvaluate items = .ok out) : enumEvaluate out = .ok out := by
  obtain ⟨vals, rfl, _⟩ := C30_enum_values _ _ h
  rw [enumEvaluate, enumLoop_eq, fillIn_again]

/-- C30: "one more" is meant over the integers, as long as the value before is not the largest int64. -/
theorem C30_successor_partial (items out : List EItem) (h : enumEvaluate items = .ok out) :
    ∃ vals, out = fillIn items vals ∧ vals.length = items.length ∧
      ((items[0]?).map EItem.expr = some none → ∃ w, vals[0]? = some (.int w) ∧ w.toInt = 0) ∧
      ∀ i : Nat, (items[i + 1]?).map EItem.expr = some none →
        ∃ v w, vals[i]? = some (.int v) ∧ vals[i + 1]? = some (.int w) ∧ (v.toInt ≠ 2 ^ 63 - 1 → w.toInt = v.toInt + 1) := by
  obtain ⟨vals, h1, hs⟩ := C30_enum_values _ _ h
  refine ⟨vals, h1, hs.length, fun h0 => ⟨_, hs.head h0, rfl⟩, ?_⟩
  intro i hi
  obtain ⟨v, hv, hw⟩ := hs.succ i hi
  refine ⟨v, _, hv, hw, fun h1 => ?_⟩
  have h2 := BitVec.toInt_lt (x := v)
  have h3 := BitVec.le_toInt (x := v)
  rw [BitVec.toInt_add]
  norm_num at h1 h2 h3 ⊢
  rw [Int.bmod_eq_of_le (by omega) (by omega)]

/-- C30: the item after one with the largest int64 gets the smallest one. -/
theorem C30_violated_overflow :
    enumEvaluate [⟨"A", some (.ok (.int (BitVec.ofInt 64 (2 ^ 63 - 1))))⟩, ⟨"B", none⟩] =
      .ok [⟨"A", some (.ok (.int (BitVec.ofInt 64 (2 ^ 63 - 1))))⟩, ⟨"B", some (.ok (.int (BitVec.ofInt 64 (-2 ^ 63))))⟩] := by
  rfl

/-- A declaration that meets the hypotheses: `enum … { A, B, C = 7, D }`. -/
example : enumEvaluate [⟨"A", none⟩, ⟨"B", none⟩, ⟨"C", some (.ok (.int 7#64))⟩, ⟨"D", none⟩] =
    .ok (fillIn [⟨"A", none⟩, ⟨"B", none⟩, ⟨"C", none⟩, ⟨"D", none⟩] [.int 0#64, .int 1#64, .int 7#64, .int 8#64]) := rfl

example : ∃ msg, enumEvaluate [⟨"A", some (.ok .other)⟩, ⟨"B", none⟩] = .error msg := ⟨_, rfl⟩

/-- C30: the generated string functions are inverse to each other on the items of the enum. -/
theorem C30_string_roundtrip {w : Nat} (t : EnumTable w) (unknown : BitVec w → String) (hn : (t.map (·.1)).Nodup)
    (hv : (t.map (·.2)).Nodup) (name : String) (v : BitVec w) (h : (name, v) ∈ t) :
    t.str unknown v = name ∧ t.parse name = some v ∧ t.parse (t.str unknown v) = some v := by
  have h1 : t.find? (fun e => e.2 == v) = some (name, v) := by
    clear hn
    induction t with
    | nil => simp at h
    | cons e t ih =>
      simp only [List.map_cons, List.nodup_cons] at hv
      rcases List.mem_cons.mp h with rfl | h'
      · simp
      · have : e.2 ≠ v := by rintro rfl; exact hv.1 (List.mem_map.mpr ⟨_, h', rfl⟩)
        rw [List.find?_cons_of_neg (by simpa using this)]
        exact ih hv.2 h'
  have h2 : t.find? (fun e => e.1 == name) = some (name, v) := by
    clear hv h1
    induction t with
    | nil => simp at h
    | cons e t ih =>
      simp only [List.map_cons, List.nodup_cons] at hn
      rcases List.mem_cons.mp h with rfl | h'
      · simp
      · have : e.1 ≠ name := by rintro rfl; exact hn.1 (List.mem_map.mpr ⟨_, h', rfl⟩)
        rw [List.find?_cons_of_neg (by simpa using this)]
        exact ih hn.2 h'
  have h3 : t.str unknown v = name := by simp [EnumTable.str, h1]
  have h4 : t.parse name = some v := by simp [EnumTable.parse, h2]
  exact ⟨h3, h4, by rw [h3, h4]⟩

/-- C30: every other string is rejected. -/
theorem C30_string_rejects {w : Nat} (t : EnumTable w) (s : String) : t.parse s = none ↔ ∀ v, (s, v) ∉ t := by
  simp only [EnumTable.parse, Option.map_eq_none_iff, List.find?_eq_none, beq_iff_eq]
  constructor
  · intro h v hm; exact h _ hm rfl
  · rintro h ⟨n, v⟩ hm rfl; exact h v hm

example : EnumTable.str (w := 8) [("RED", 0#8), ("GREEN", 1#8)] (fun _ => "unknown") 1#8 = "GREEN" ∧
    EnumTable.parse (w := 8) [("RED", 0#8), ("GREEN", 1#8)] "GREEN" = some 1#8 ∧
    EnumTable.parse (w := 8) [("RED", 0#8), ("GREEN", 1#8)] "BLUE" = none := by decide +kernel

/-! ## C31 -/

theorem shiftsToZero_nonpos (n : Nat) (v : BitVec 64) (h : v.toInt ≤ 0) : shiftsToZero n v = 0 := by
  cases n with
  | zero => rfl
  | succ n =>
    have : ¬ (0#64).slt v = true := by
      simp only [BitVec.slt, decide_eq_true_eq]
      simpa using h
    simp [shiftsToZero, this]

theorem shiftsToZero_size (n : Nat) (v : BitVec 64) (h0 : 0 ≤ v.toInt) (hn : v.toInt < 2 ^ n) :
    shiftsToZero n v = v.toNat.size := by
  induction n generalizing v with
  | zero =>
    have h : v.toInt = 0 := by norm_num at hn; omega
    have : v = 0#64 := BitVec.eq_of_toInt_eq (by simpa using h)
    subst this; rfl
  | succ n ih =>
    have hnat : v.toInt = (v.toNat : Int) := by
      rcases BitVec.toInt_eq_toNat_cond v with hc
      rw [hc] at h0 ⊢
      have := v.isLt
      split at h0 <;> simp_all; omega
    by_cases hp : v.toInt ≤ 0
    · have h : v.toInt = 0 := by omega
      have : v = 0#64 := BitVec.eq_of_toInt_eq (by simpa using h)
      subst this
      rw [shiftsToZero_nonpos _ _ hp]; rfl
    · have hs : (0#64).slt v = true := by
        simp only [BitVec.slt, decide_eq_true_eq]
        simpa using hp
      have hi : (v.sshiftRight 1).toInt = v.toInt / 2 := by
        rw [BitVec.toInt_sshiftRight, Int.shiftRight_eq_div_pow]; norm_num
      have hi2 : ((v.sshiftRight 1).toNat : Int) = (v.toNat : Int) / 2 := by
        have h1 : (v.sshiftRight 1).toInt = ((v.sshiftRight 1).toNat : Int) := by
          have h2 : 0 ≤ (v.sshiftRight 1).toInt := by rw [hi]; omega
          rw [BitVec.toInt_eq_toNat_cond] at h2 ⊢
          have := (v.sshiftRight 1).isLt
          split at h2 <;> simp_all; omega
        rw [← h1, hi, hnat]
      have hi3 : (v.sshiftRight 1).toNat = v.toNat / 2 := by omega
      simp only [shiftsToZero, hs, if_true]
      rw [ih _ (by rw [hi]; omega) (by rw [hi]; rw [pow_succ] at hn; omega), hi3]
      have hv : 0 < v.toNat := by omega
      have hd : v.toNat.size = (v.toNat / 2).size + 1 := by
        have h5 : v.toNat = Nat.bit v.toNat.bodd v.toNat.div2 := (Nat.bit_bodd_div2 _).symm
        conv_lhs => rw [h5]
        rw [Nat.size_bit (by rw [← h5]; omega), Nat.div2_val]
      omega

/-- The loop in `findNextFreeBit` has ended after 63 iterations: giving it more makes no difference. -/
theorem shiftsToZero_stable (n : Nat) (h : 63 ≤ n) (v : BitVec 64) : shiftsToZero n v = shiftsToZero 63 v := by
  by_cases hp : v.toInt ≤ 0
  · rw [shiftsToZero_nonpos _ _ hp, shiftsToZero_nonpos _ _ hp]
  · have h1 := BitVec.toInt_lt (x := v)
    norm_num at h1
    have h2 : (2 : Int) ^ 63 ≤ 2 ^ n := pow_le_pow_right₀ (by norm_num) h
    norm_num at h2
    rw [shiftsToZero_size n v (by omega) (by omega), shiftsToZero_size 63 v (by omega) (by norm_num; omega)]

theorem findNextFreeBit_toInt (v : BitVec 64) (h : v.toInt < 2 ^ 62) :
    ∃ k, k ≤ 62 ∧ findNextFreeBit v = 1#64 <<< k ∧ (findNextFreeBit v).toInt = 2 ^ k ∧ v.toInt < 2 ^ k ∧
      ∀ j : Nat, v.toInt < 2 ^ j → k ≤ j := by
  have hpow : ∀ k : Nat, k ≤ 62 → (1#64 <<< k).toInt = 2 ^ k := by
    intro k hk
    have h1 : (2 : Nat) ^ k ≤ 2 ^ 62 := pow_le_pow_right₀ (by norm_num) hk
    have h2 : (1#64 <<< k).toNat = 2 ^ k := by
      rw [BitVec.toNat_shiftLeft, Nat.shiftLeft_eq]
      norm_num at h1 ⊢
      omega
    rw [BitVec.toInt_eq_toNat_of_lt (by rw [h2]; norm_num at h1 ⊢; omega), h2]
    push_cast; rfl
  by_cases hp : v.toInt ≤ 0
  · refine ⟨0, by omega, ?_, ?_, by norm_num; omega, fun _ _ => by omega⟩
    · simp [findNextFreeBit, shiftsToZero_nonpos _ _ hp]
    · rw [findNextFreeBit, shiftsToZero_nonpos _ _ hp]; rfl
  · have hnat : v.toInt = (v.toNat : Int) := by
      rw [BitVec.toInt_eq_toNat_cond] at hp ⊢
      have := v.isLt
      split at hp <;> simp_all; omega
    have hsz : shiftsToZero 64 v = v.toNat.size :=
      shiftsToZero_size 64 v (by omega) (by norm_num at h ⊢; omega)
    have hle : v.toNat.size ≤ 62 := Nat.size_le.mpr (by norm_num at h ⊢; omega)
    refine ⟨v.toNat.size, hle, by rw [findNextFreeBit, hsz], by rw [findNextFreeBit, hsz, hpow _ hle], ?_, ?_⟩
    · rw [hnat]; exact_mod_cast Nat.lt_size_self _
    · intro j hj
      rw [hnat] at hj
      exact Nat.size_le.mpr (by exact_mod_cast hj)

/-- C31: the values of a bitmask declaration that is accepted; an implicit value is 1 at the head, otherwise derived from
the value before it. -/
theorem bitmask_values (items out : List EItem) (h : bitmaskEvaluate items = .ok out) :
    ∃ vals, out = fillIn items vals ∧ ItemSpec 1#64 findNextFreeBit items vals := by
  rw [bitmaskEvaluate, bitmaskLoop_eq] at h
  obtain ⟨vals, h1, h2, h3, h4, h5⟩ := itemLoop_ok _ _ _ _ _ h
  exact ⟨vals, h1, h2, h3, h4, h5⟩

/-- C31: when a declaration is rejected. -/
theorem C31_bitmask_rejects (items : List EItem) :
    (∃ msg, bitmaskEvaluate items = .error msg) ↔
      (∃ (i : Nat) (msg : String), (items[i]?).map EItem.expr = some (some (.error msg))) ∨
      (∃ i : Nat, (items[i]?).map EItem.expr = some (some (.ok .other)) ∧ (items[i + 1]?).map EItem.expr = some none) := by
  rw [bitmaskEvaluate, bitmaskLoop_eq, itemLoop_error]
  simp

/-- C31: an implicit value is the smallest power of two greater than the value before it, provided that one is less
than 2^62. -/
theorem C31_next_power_partial (items out : List EItem) (h : bitmaskEvaluate items = .ok out) :
    ∃ vals, out = fillIn items vals ∧ vals.length = items.length ∧
      ((items[0]?).map EItem.expr = some none → ∃ w, vals[0]? = some (.int w) ∧ w.toInt = 1) ∧
      ∀ i : Nat, (items[i + 1]?).map EItem.expr = some none → ∃ v w, vals[i]? = some (.int v) ∧ vals[i + 1]? = some (.int w) ∧
        (v.toInt < 2 ^ 62 → ∃ k : Nat, w.toInt = 2 ^ k ∧ v.toInt < 2 ^ k ∧ ∀ j : Nat, v.toInt < 2 ^ j → (2 : Int) ^ k ≤ 2 ^ j) := by
  obtain ⟨vals, h1, hs⟩ := bitmask_values _ _ h
  refine ⟨vals, h1, hs.length, fun h0 => ⟨_, hs.head h0, rfl⟩, ?_⟩
  intro i hi
  obtain ⟨v, hv, hw⟩ := hs.succ i hi
  refine ⟨v, _, hv, hw, fun hb => ?_⟩
  obtain ⟨k, _, _, h2, h3, h4⟩ := findNextFreeBit_toInt v hb
  exact ⟨k, h2, h3, fun j hj => pow_le_pow_right₀ (by norm_num) (h4 j hj)⟩

/-- C31: an implicit value shares no bit with any earlier value, provided none of them is negative or larger than the one
just before, and that one is less than 2^62. -/
theorem C31_disjoint_partial (items out : List EItem) (h : bitmaskEvaluate items = .ok out) :
    ∃ vals, out = fillIn items vals ∧ vals.length = items.length ∧
      ∀ i : Nat, (items[i + 1]?).map EItem.expr = some none → ∃ v w, vals[i]? = some (.int v) ∧ vals[i + 1]? = some (.int w) ∧
        (v.toInt < 2 ^ 62 → ∀ (j : Nat) (u : BitVec 64), j ≤ i → vals[j]? = some (.int u) → 0 ≤ u.toInt → u.toInt ≤ v.toInt → w &&& u = 0#64) := by
  obtain ⟨vals, h1, hs⟩ := bitmask_values _ _ h
  refine ⟨vals, h1, hs.length, ?_⟩
  intro i hi
  obtain ⟨v, hv, hw⟩ := hs.succ i hi
  refine ⟨v, _, hv, hw, fun hb j u _ _ h0 hle => ?_⟩
  obtain ⟨k, hk, h2, _, h3, _⟩ := findNextFreeBit_toInt v hb
  have hnat : u.toInt = (u.toNat : Int) := by
    rw [BitVec.toInt_eq_toNat_cond] at h0 ⊢
    have := u.isLt
    split at h0 <;> simp_all; omega
  have hlt : u.toNat < 2 ^ k := by
    have : (u.toNat : Int) < 2 ^ k := by omega
    exact_mod_cast this
  rw [h2]
  apply BitVec.eq_of_getLsbD_eq
  intro b _
  rw [BitVec.getLsbD_and, BitVec.getLsbD_shiftLeft]
  by_cases hbk : b < k
  · simp [hbk]
  · have : u.getLsbD b = false := by
      rw [BitVec.getLsbD]
      exact Nat.testBit_lt_two_pow (lt_of_lt_of_le hlt (pow_le_pow_right₀ (by norm_num) (by omega)))
    simp [this]

/-- The values of a declaration without explicit ones. -/
theorem implicit_values (names : List String) (k : Nat) (h : k + names.length ≤ 62) :
    itemLoop 1#64 findNextFreeBit (some (.int (1#64 <<< k))) (names.map fun n => ⟨n, none⟩) =
      .ok (fillIn (names.map fun n => ⟨n, none⟩) ((List.range' (k + 1) names.length).map fun i => .int (1#64 <<< i))) := by
  induction names generalizing k with
  | nil => rfl
  | cons n ns ih =>
    simp only [List.length_cons] at h
    have hnext : findNextFreeBit (1#64 <<< k) = 1#64 <<< (k + 1) := by
      have hk : k < 62 := by omega
      clear ih h
      revert k
      decide +kernel
    simp only [List.map_cons, itemLoop, itemValue, hnext]
    show (do
      let rest ← itemLoop 1#64 findNextFreeBit (some (.int (1#64 <<< (k + 1)))) _
      pure (_ :: rest) : Except String (List EItem)) = _
    rw [ih (k + 1) (by omega), List.length_cons, List.range'_succ]
    rfl

/-- C31: a declaration of at most 63 names without explicit values: the i-th gets 2^i. -/
theorem C31_all_implicit (names : List String) (h : names.length ≤ 63) :
    bitmaskEvaluate (names.map fun n => ⟨n, none⟩) =
      .ok (fillIn (names.map fun n => ⟨n, none⟩) ((List.range names.length).map fun i => .int (BitVec.ofNat 64 (2 ^ i)))) := by
  have hp : ∀ i, BitVec.ofNat 64 (2 ^ i) = 1#64 <<< i := by
    intro i
    apply BitVec.eq_of_toNat_eq
    rw [BitVec.toNat_ofNat, BitVec.toNat_shiftLeft, Nat.shiftLeft_eq]
    simp
  simp only [hp]
  rw [bitmaskEvaluate, bitmaskLoop_eq]
  cases names with
  | nil => rfl
  | cons n ns =>
    simp only [List.map_cons, itemLoop, itemValue]
    show (do
      let rest ← itemLoop 1#64 findNextFreeBit (some (.int (1#64 <<< 0))) _
      pure (_ :: rest) : Except String (List EItem)) = _
    simp only [List.length_cons] at h
    rw [implicit_values ns 0 (by omega), List.length_cons, List.range_eq_range', List.range'_succ]
    rfl

/-- C31: with a value that is not the largest so far, the next implicit one collides with an earlier value. -/
theorem C31_violated_overlap :
    bitmaskEvaluate [⟨"A", some (.ok (.int 8#64))⟩, ⟨"B", some (.ok (.int 4#64))⟩, ⟨"C", none⟩] =
      .ok [⟨"A", some (.ok (.int 8#64))⟩, ⟨"B", some (.ok (.int 4#64))⟩, ⟨"C", some (.ok (.int 8#64))⟩] := by rfl

/-- C31: after 2^62 comes the smallest int64, which is negative, and then 1 again. -/
theorem C31_violated_overflow :
    bitmaskEvaluate [⟨"A", some (.ok (.int (BitVec.ofInt 64 (2 ^ 62))))⟩, ⟨"B", none⟩, ⟨"C", none⟩] =
      .ok [⟨"A", some (.ok (.int (BitVec.ofInt 64 (2 ^ 62))))⟩, ⟨"B", some (.ok (.int (BitVec.ofInt 64 (-2 ^ 63))))⟩,
        ⟨"C", some (.ok (.int 1#64))⟩] := by rfl

/-- A declaration that meets the hypotheses: `bitmask … { A, B = 5, C, D }`. -/
example : bitmaskEvaluate [⟨"A", none⟩, ⟨"B", some (.ok (.int 5#64))⟩, ⟨"C", none⟩, ⟨"D", none⟩] =
    .ok (fillIn [⟨"A", none⟩, ⟨"B", none⟩, ⟨"C", none⟩, ⟨"D", none⟩] [.int 1#64, .int 5#64, .int 8#64, .int 16#64]) := rfl

/-! ## C45 -/

/-- C45: the Go type of `int:b` and `bit:b` has at least `b` bits, at most 64, is a Go type and has the right sign. -/
theorem C45_go_type (signed dynamic : Bool) (b : Nat) (h1 : 1 ≤ b) (h2 : b ≤ 64) :
    let t := goBitFieldType signed dynamic b
    t.signed = signed ∧ b ≤ t.width ∧ (t.width = 8 ∨ t.width = 16 ∨ t.width = 32 ∨ t.width = 64) := by
  simp only [goBitFieldType, goBits]
  split
  · exact ⟨trivial, h2, by simp⟩
  · split_ifs <;> simp_all

/-- C45: the width chosen is the smallest of Go's that suffices. -/
theorem C45_go_type_least (signed : Bool) (b w : Nat) (h1 : 1 ≤ b) (h2 : b ≤ w)
    (hw : w = 8 ∨ w = 16 ∨ w = 32 ∨ w = 64) : (goBitFieldType signed false b).width ≤ w := by
  simp only [goBitFieldType, goBits]
  split_ifs <;> simp_all <;> omega

/-- C45: converting what `ReadBits` returned (a uint64 below 2^b) to the Go type of the field keeps the value. -/
theorem C45_unsigned_conversion (dynamic : Bool) (b : Nat) (h1 : 1 ≤ b) (h2 : b ≤ 64) (v : BitVec 64) (hv : v.toNat < 2 ^ b) :
    (goBitFieldType false dynamic b).val (goConv ⟨false, 64⟩ (goBitFieldType false dynamic b) v) = (v.toNat : Int) := by
  obtain ⟨hs, hb, _⟩ := C45_go_type false dynamic b h1 h2
  generalize goBitFieldType false dynamic b = t at hs hb
  obtain ⟨s, w⟩ := t
  simp only at hs hb
  subst hs
  have : v.toNat < 2 ^ w := lt_of_lt_of_le hv (pow_le_pow_right₀ (by norm_num) hb)
  simp only [GoNum.val, goConv, Bool.false_eq_true, if_false, BitVec.toNat_setWidth]
  rw [Nat.mod_eq_of_lt this]

/-- C45: the same for a signed bit field, read as int64. -/
theorem C45_signed_conversion (dynamic : Bool) (b : Nat) (h1 : 1 ≤ b) (h2 : b ≤ 64) (v : BitVec 64)
    (hlo : -2 ^ (b - 1) ≤ v.toInt) (hhi : v.toInt < 2 ^ (b - 1)) :
    (goBitFieldType true dynamic b).val (goConv ⟨true, 64⟩ (goBitFieldType true dynamic b) v) = v.toInt := by
  obtain ⟨hs, hb, hw⟩ := C45_go_type true dynamic b h1 h2
  generalize goBitFieldType true dynamic b = t at hs hb hw
  obtain ⟨s, w⟩ := t
  simp only at hs hb hw
  subst hs
  have hp : (2 : Int) ^ (b - 1) ≤ 2 ^ (w - 1) := pow_le_pow_right₀ (by norm_num) (by omega)
  have h64 : min w 64 = w := by omega
  simp only [GoNum.val, goConv, if_true, BitVec.toInt_signExtend]
  rw [h64]
  rcases hw with rfl | rfl | rfl | rfl <;> norm_num at hp ⊢ <;> exact Int.bmod_eq_of_le (by omega) (by omega)

example : (goBitFieldType true false 12).width = 16 ∧ (goBitFieldType false false 33).width = 64 ∧
    (goBitFieldType true false 12).val (goConv ⟨true, 64⟩ (goBitFieldType true false 12) (BitVec.ofInt 64 (-2048))) = -2048 := by
  decide +kernel

/-- Number of bits of the values of a zserio integer type: the fixed types as named, the var types as in the encoding
(C04, C05); `varsize` has 31. -/
def zserioIntBits : List (String × GoNum) :=
  [("int8", ⟨true, 8⟩), ("int16", ⟨true, 16⟩), ("int32", ⟨true, 32⟩), ("int64", ⟨true, 64⟩),
   ("uint8", ⟨false, 8⟩), ("uint16", ⟨false, 16⟩), ("uint32", ⟨false, 32⟩), ("uint64", ⟨false, 64⟩),
   ("varint16", ⟨true, 15⟩), ("varint32", ⟨true, 29⟩), ("varint64", ⟨true, 57⟩), ("varint", ⟨true, 64⟩),
   ("varuint16", ⟨false, 15⟩), ("varuint32", ⟨false, 29⟩), ("varuint64", ⟨false, 57⟩), ("varuint", ⟨false, 64⟩),
   ("varsize", ⟨false, 31⟩)]

/-- C45: the Go types of the other integer types have the right sign and hold all their values. -/
theorem C45_int_types : ∀ e ∈ zserioIntBits, ∃ t, goIntTypes.lookup e.1 = some t ∧ t.signed = e.2.signed ∧ e.2.width ≤ t.width := by
  have h : ∀ e ∈ zserioIntBits, (goIntTypes.lookup e.1).any (fun t => t.signed == e.2.signed && decide (e.2.width ≤ t.width)) = true := by
    decide +kernel
  intro e he
  have := h e he
  cases hl : goIntTypes.lookup e.1 with
  | none => rw [hl] at this; cases this
  | some t =>
    rw [hl] at this
    simp only [Option.any_some, Bool.and_eq_true, beq_iff_eq, decide_eq_true_eq] at this
    exact ⟨t, rfl, this⟩

end Verif
