import Verif.EnumTables
import Verif.Props.Enum
import Mathlib.Data.List.Forall2
import Mathlib.Data.List.Nodup

/-!
# C96: the tables of generated enums
-/

namespace Verif

/-- A number of a Go type is the value of its bits. -/
theorem GoNum.val_ofInt (g : GoNum) (hw : 0 < g.width) (z : Int) (h : g.holds z = true) : g.val (BitVec.ofInt g.width z) = z := by
  unfold GoNum.holds at h
  unfold GoNum.val
  cases hs : g.signed
  · simp only [hs, Bool.false_eq_true, if_false, decide_eq_true_eq] at h ⊢
    rw [BitVec.toNat_ofInt]
    have : z % ((2 ^ g.width : Nat) : Int) = z := Int.emod_eq_of_lt h.1 (by push_cast; exact h.2)
    rw [this]
    omega
  · simp only [hs, if_true, decide_eq_true_eq] at h ⊢
    rw [BitVec.toInt_ofInt]
    obtain ⟨k, hk⟩ : ∃ k, g.width = k + 1 := ⟨g.width - 1, by omega⟩
    rw [hk] at h ⊢
    simp only [Nat.add_sub_cancel] at h
    rw [Int.bmod_eq_of_le]
    · have : (2 : Nat) ^ (k + 1) = 2 * 2 ^ k := by rw [pow_succ]; omega
      have h2 : ((2 ^ k : Nat) : Int) = 2 ^ k := by push_cast; rfl
      rw [this]; push_cast at h2 ⊢; omega
    · have : (2 : Nat) ^ (k + 1) = 2 * 2 ^ k := by rw [pow_succ]; omega
      have h2 : ((2 ^ k : Nat) : Int) = 2 ^ k := by push_cast; rfl
      rw [this]; push_cast at h2 ⊢; omega

/-- The numbers of a Go type are the values of its bits. -/
theorem GoNum.holds_iff (g : GoNum) (hw : 0 < g.width) (z : Int) : g.holds z = true ↔ ∃ v : BitVec g.width, g.val v = z := by
  refine ⟨fun h => ⟨_, g.val_ofInt hw z h⟩, ?_⟩
  rintro ⟨v, rfl⟩
  unfold GoNum.holds GoNum.val
  cases g.signed
  · simp only [Bool.false_eq_true, if_false, decide_eq_true_eq]
    exact ⟨by omega, by exact_mod_cast v.isLt⟩
  · simp only [if_true, decide_eq_true_eq]
    obtain ⟨k, hk⟩ : ∃ k, g.width = k + 1 := ⟨g.width - 1, by omega⟩
    have h1 := BitVec.le_toInt v
    have h2 := BitVec.toInt_lt (x := v)
    exact ⟨h1, h2⟩

/-! ## What Go accepts -/

/-- What Go asks of the items of an enum with these results: integers of the type, all different, with different names. -/
structure GoodItems (g : GoNum) (items : List EItem) (vals : List ERes) : Prop where
  ints : ∀ r ∈ vals, ∃ v : BitVec 64, r = .int v ∧ ∃ b : BitVec g.width, g.val b = v.toInt
  values : vals.Nodup
  names : (items.map (·.name)).Nodup

theorem enumConst_filled (g : GoNum) (i : EItem) (v : BitVec 64) (h : g.holds v.toInt = true) :
    enumConst g { i with expr := some (.ok (.int v)) } = some (i.name, BitVec.ofInt g.width v.toInt) := by
  simp [enumConst, h]

theorem mapM_consts (g : GoNum) : ∀ (items : List EItem) (vals : List ERes) (cs : EnumTable g.width), vals.length = items.length →
    (fillIn items vals).mapM (enumConst g) = some cs →
      cs.map (·.1) = items.map (·.name) ∧
      List.Forall₂ (fun (r : ERes) (c : String × BitVec g.width) => ∃ v : BitVec 64, r = .int v ∧ g.holds v.toInt = true ∧ c.2 = BitVec.ofInt g.width v.toInt)
        vals cs := by
  intro items
  induction items with
  | nil =>
    intro vals cs hl h
    have : vals = [] := List.length_eq_zero_iff.1 (by simpa using hl)
    subst this
    simp [fillIn] at h
    subst h
    simp
  | cons i is ih =>
    intro vals cs hl h
    cases vals with
    | nil => simp at hl
    | cons r rs =>
      rw [show fillIn (i :: is) (r :: rs) = { i with expr := some (.ok r) } :: fillIn is rs from rfl, List.mapM_cons] at h
      obtain ⟨c, h1, h2⟩ := Option.bind_eq_some_iff.1 h
      obtain ⟨cs', h3, h4⟩ := Option.bind_eq_some_iff.1 h2
      cases h4
      obtain ⟨i1, i2⟩ := ih rs cs' (by simpa using hl) h3
      unfold enumConst at h1
      cases r with
      | other => simp at h1
      | int v =>
        simp only at h1
        split at h1
        · rename_i hv
          cases h1
          exact ⟨by simp [i1], .cons ⟨v, rfl, hv, rfl⟩ i2⟩
        · cases h1

theorem mapM_consts_some (g : GoNum) : ∀ (items : List EItem) (vals : List ERes), vals.length = items.length →
    (∀ r ∈ vals, ∃ v : BitVec 64, r = .int v ∧ g.holds v.toInt = true) → ∃ cs, (fillIn items vals).mapM (enumConst g) = some cs := by
  intro items
  induction items with
  | nil => intro vals _ _; cases vals <;> exact ⟨[], rfl⟩
  | cons i is ih =>
    intro vals hl hv
    cases vals with
    | nil => simp at hl
    | cons r rs =>
      obtain ⟨v, rfl, h1⟩ := hv r (by simp)
      obtain ⟨cs, h2⟩ := ih rs (by simpa using hl) fun r hr => hv r (by simp [hr])
      refine ⟨(i.name, BitVec.ofInt g.width v.toInt) :: cs, ?_⟩
      rw [show fillIn (i :: is) (.int v :: rs) = { i with expr := some (.ok (.int v)) } :: fillIn is rs from rfl, List.mapM_cons,
        enumConst_filled g i v h1, h2]
      rfl

theorem consts_inj (g : GoNum) (hw : 0 < g.width) {vals : List ERes} {cs : EnumTable g.width}
    (h : List.Forall₂ (fun (r : ERes) (c : String × BitVec g.width) => ∃ v : BitVec 64, r = .int v ∧ g.holds v.toInt = true ∧ c.2 = BitVec.ofInt g.width v.toInt)
      vals cs) : (cs.map (·.2)).Nodup ↔ vals.Nodup := by
  have mem : ∀ {vals : List ERes} {cs : EnumTable g.width}, List.Forall₂ (fun (r : ERes) (c : String × BitVec g.width) =>
      ∃ v : BitVec 64, r = .int v ∧ g.holds v.toInt = true ∧ c.2 = BitVec.ofInt g.width v.toInt) vals cs →
      ∀ v : BitVec 64, g.holds v.toInt = true → (BitVec.ofInt g.width v.toInt ∈ cs.map (·.2) ↔ ERes.int v ∈ vals) := by
    intro vals cs h
    induction h with
    | nil => simp
    | cons hd _ ih =>
      obtain ⟨v', rfl, h1, h2⟩ := hd
      intro v hv
      simp only [List.map_cons, List.mem_cons, ih v hv, h2, ERes.int.injEq]
      refine or_congr_left ⟨fun he => ?_, fun he => by rw [he]⟩
      have := congrArg g.val he
      rw [GoNum.val_ofInt g hw _ hv, GoNum.val_ofInt g hw _ h1] at this
      exact BitVec.eq_of_toInt_eq this
  induction h with
  | nil => simp
  | cons hd htl ih =>
    obtain ⟨v, rfl, h1, h2⟩ := hd
    rw [List.map_cons, List.nodup_cons, List.nodup_cons, h2, mem htl v h1]
    exact and_congr_right fun _ => ih

/-- **C96**: Go accepts the tables of an enum exactly if the values of its items are numbers of its type, no two items have the same
value, and no two have the same name. -/
theorem C96_accepted (g : GoNum) (hw : 0 < g.width) (items : List EItem) (vals : List ERes) (hl : vals.length = items.length) :
    (∃ t, enumTable g (fillIn items vals) = some t) ↔ GoodItems g items vals := by
  constructor
  · rintro ⟨t, h⟩
    obtain ⟨cs, h1, h2⟩ := Option.bind_eq_some_iff.1 h
    split at h2
    · rename_i hn
      cases h2
      obtain ⟨i1, i2⟩ := mapM_consts g items vals t hl h1
      refine ⟨fun r hr => ?_, (consts_inj g hw i2).1 hn.1, i1 ▸ hn.2⟩
      obtain ⟨n, hn, rfl⟩ := List.getElem_of_mem hr
      obtain ⟨v, hv⟩ := (List.forall₂_iff_get.1 i2).2 n hn (i2.length_eq ▸ hn)
      exact ⟨v, hv.1, (g.holds_iff hw _).1 hv.2.1⟩
    · cases h2
  · rintro ⟨h1, h2, h3⟩
    obtain ⟨cs, hc⟩ := mapM_consts_some g items vals hl fun r hr => by
      obtain ⟨v, e, hv⟩ := h1 r hr
      exact ⟨v, e, (g.holds_iff hw _).2 hv⟩
    obtain ⟨i1, i2⟩ := mapM_consts g items vals cs hl hc
    refine ⟨cs, ?_⟩
    unfold enumTable
    rw [hc]
    show (if _ then _ else _) = _
    rw [if_pos ⟨(consts_inj g hw i2).2 h2, by rw [i1]; exact h3⟩]

/-- **C96**: an enum without written values whose items have different names is accepted, if its type has as many numbers from 0 on
as it has items; item `i` has the value `i`. -/
theorem C96_implicit (g : GoNum) (hw : 0 < g.width) (items out : List EItem) (hi : ∀ i ∈ items, i.expr = none)
    (hn : (items.map (·.name)).Nodup) (hc : ∀ k < items.length, ∃ b : BitVec g.width, g.val b = (k : Int)) (h63 : items.length ≤ 2 ^ 63)
    (h : enumEvaluate items = .ok out) :
    ∃ t, enumTable g out = some t ∧ t.map (·.1) = items.map (·.name) ∧ ∀ k (hk : k < t.length), g.val (t[k].2) = k := by
  obtain ⟨vals, rfl, hs⟩ := C30_enum_values _ _ h
  have hv : ∀ k, k < items.length → vals[k]? = some (.int (BitVec.ofNat 64 k)) := by
    intro k
    induction k with
    | zero =>
      intro hk
      refine hs.head ?_
      rw [List.getElem?_eq_getElem hk]
      simp [hi _ (List.getElem_mem hk)]
    | succ k ih =>
      intro hk
      obtain ⟨v, h1, h2⟩ := hs.succ k (by rw [List.getElem?_eq_getElem hk]; simp [hi _ (List.getElem_mem hk)])
      rw [ih (by omega)] at h1
      cases h1
      rw [h2, BitVec.ofNat_add]
  have hint : ∀ k, k < items.length → (BitVec.ofNat 64 k).toInt = (k : Int) := by
    intro k hk
    rw [BitVec.toInt_eq_toNat_bmod, BitVec.toNat_ofNat, Nat.mod_eq_of_lt (by norm_num at h63 ⊢; omega)]
    norm_num at h63
    rw [Int.bmod_eq_of_le] <;> norm_num <;> omega
  have hl := hs.length
  have good : GoodItems g items vals := by
    refine ⟨fun r hr => ?_, ?_, hn⟩
    · obtain ⟨k, hk, rfl⟩ := List.getElem_of_mem hr
      have := hv k (by omega)
      rw [List.getElem?_eq_getElem hk] at this
      injection this with this
      exact ⟨_, this, by rw [hint k (by omega)]; exact hc k (by omega)⟩
    · rw [List.nodup_iff_getElem?_ne_getElem?]
      intro i j hij hj he
      rw [hv i (by omega), hv j (by omega)] at he
      injection he with he
      injection he with he
      have := congrArg BitVec.toInt he
      rw [hint i (by omega), hint j (by omega)] at this
      omega
  obtain ⟨t, ht⟩ := (C96_accepted g hw items vals hl).2 good
  refine ⟨t, ht, ?_⟩
  obtain ⟨cs, h1, h2⟩ := Option.bind_eq_some_iff.1 ht
  split at h2
  · cases h2
    obtain ⟨i1, i2⟩ := mapM_consts g items vals t hl h1
    refine ⟨i1, fun k hk => ?_⟩
    have hk' : k < vals.length := by rw [i2.length_eq]; exact hk
    obtain ⟨v, e1, e2, e3⟩ := (List.forall₂_iff_get.1 i2).2 k hk' hk
    have := hv k (by omega)
    rw [List.getElem?_eq_getElem hk'] at this
    injection this with this
    simp only [List.get_eq_getElem] at e1 e3
    rw [this] at e1
    injection e1 with e1
    rw [e3, GoNum.val_ofInt g hw _ e2, ← e1, hint k (by omega)]
  · cases h2

/-- **C96**: two items of the same value.  The declaration is accepted, the code is not. -/
theorem C96_violated_same :
    ∃ out, enumEvaluate [⟨"A", some (.ok (.int 1#64))⟩, ⟨"B", some (.ok (.int 1#64))⟩] = .ok out ∧ enumTable ⟨false, 8⟩ out = none :=
  ⟨_, rfl, by decide +kernel⟩

/-- **C96**: `enum uint8 { A = 255, B }`.  The declaration is accepted, the code is not. -/
theorem C96_violated_range :
    ∃ out, enumEvaluate [⟨"A", some (.ok (.int 255#64))⟩, ⟨"B", none⟩] = .ok out ∧ enumTable ⟨false, 8⟩ out = none :=
  ⟨_, rfl, by decide +kernel⟩

/-! ## What users get -/

theorem EnumVars.run_keeps {w : Nat} (unknown : BitVec w → String) (st : EnumVars w) (ops : List (EnumOp w)) :
    (st.run unknown ops).table = st.table ∧ (st.run unknown ops).names = st.names ∧
      ((∀ i v, EnumOp.setValue i v ∉ ops) → (st.run unknown ops).values = st.values) := by
  induction ops generalizing st with
  | nil => exact ⟨rfl, rfl, fun _ => rfl⟩
  | cons op ops ih =>
    obtain ⟨h1, h2, h3⟩ := ih (st.step unknown op).2
    have key : (st.step unknown op).2.table = st.table ∧ (st.step unknown op).2.names = st.names ∧
        ((∀ i v, op ≠ .setValue i v) → (st.step unknown op).2.values = st.values) := by
      cases op <;> refine ⟨rfl, rfl, fun h => ?_⟩ <;> first | rfl | exact absurd rfl (h _ _)
    refine ⟨h1.trans key.1, h2.trans key.2.1, fun h => (h3 fun i v hm => h i v (by simp [hm])).trans (key.2.2 fun i v he => h i v (by simp [he]))⟩

/-- **C96**: whatever users do with the slices they got, `XStrings` returns the names of the items in the order of the declaration, and
`String` and `XString` translate between the items and their names. -/
theorem C96_names (g : GoNum) (items : List EItem) (vals : List ERes) (hl : vals.length = items.length) (t : EnumTable g.width)
    (ht : enumTable g (fillIn items vals) = some t) (unknown : BitVec g.width → String) (ops : List (EnumOp g.width)) :
    (((EnumVars.init t).run unknown ops).step unknown .strings).1 = .strings (items.map (·.name)) ∧
    ∀ (i : Nat) (v : BitVec 64), vals[i]? = some (.int v) → ∃ item : EItem, items[i]? = some item ∧
      (((EnumVars.init t).run unknown ops).step unknown (.str (BitVec.ofInt g.width v.toInt))).1 = .string item.name ∧
      (((EnumVars.init t).run unknown ops).step unknown (.parse item.name)).1 = .value (some (BitVec.ofInt g.width v.toInt)) := by
  obtain ⟨cs, h1, h2⟩ := Option.bind_eq_some_iff.1 ht
  split at h2
  · rename_i hn
    cases h2
    obtain ⟨k1, k2, _⟩ := EnumVars.run_keeps unknown (EnumVars.init t) ops
    obtain ⟨i1, i2⟩ := mapM_consts g items vals t hl h1
    refine ⟨by simp only [EnumVars.step, k2]; rw [← i1]; rfl, fun i v hv => ?_⟩
    obtain ⟨hi, hiv⟩ := List.getElem?_eq_some_iff.1 hv
    have hit : i < t.length := by rw [← i2.length_eq]; exact hi
    obtain ⟨v', e1, e2, e3⟩ := (List.forall₂_iff_get.1 i2).2 i hi hit
    simp only [List.get_eq_getElem] at e1 e3
    rw [hiv] at e1
    cases e1
    refine ⟨items[i]'(by omega), List.getElem?_eq_getElem _, ?_⟩
    have hname : t[i].1 = (items[i]'(by omega)).name := by
      have := congrArg (fun l => l[i]?) i1
      simpa [List.getElem?_eq_getElem hit, List.getElem?_eq_getElem (show i < items.length by omega)] using this
    have hm : ((items[i]'(by omega)).name, BitVec.ofInt g.width v.toInt) ∈ t := by
      rw [← hname, ← e3]; exact List.getElem_mem hit
    obtain ⟨r1, r2, _⟩ := C30_string_roundtrip t unknown hn.2 hn.1 _ _ hm
    simp only [EnumVars.step, k1]
    exact ⟨by rw [show (EnumVars.init t).table = t from rfl, r1], by rw [show (EnumVars.init t).table = t from rfl, r2]⟩
  · cases h2

/-- **C96**: `String` of a value that no item has is the text for unknown values, and `XString` of a text that is no name is an error,
whatever users did before. -/
theorem C96_unknown (g : GoNum) (hw : 0 < g.width) (items : List EItem) (vals : List ERes) (hl : vals.length = items.length) (t : EnumTable g.width)
    (ht : enumTable g (fillIn items vals) = some t) (unknown : BitVec g.width → String) (ops : List (EnumOp g.width)) :
    (∀ b : BitVec g.width, (∀ v : BitVec 64, ERes.int v ∈ vals → g.val b ≠ v.toInt) →
      (((EnumVars.init t).run unknown ops).step unknown (.str b)).1 = .string (unknown b)) ∧
    ∀ s : String, s ∉ items.map (·.name) → (((EnumVars.init t).run unknown ops).step unknown (.parse s)).1 = .value none := by
  obtain ⟨cs, h1, h2⟩ := Option.bind_eq_some_iff.1 ht
  split at h2
  · cases h2
    obtain ⟨k1, _, _⟩ := EnumVars.run_keeps unknown (EnumVars.init t) ops
    obtain ⟨i1, i2⟩ := mapM_consts g items vals t hl h1
    constructor
    · intro b hb
      have hf : t.find? (fun e => e.2 == b) = none := by
        rw [List.find?_eq_none]
        intro e he hbe
        obtain ⟨i, hi, rfl⟩ := List.getElem_of_mem he
        obtain ⟨v, e1, e2, e3⟩ := (List.forall₂_iff_get.1 i2).2 i (i2.length_eq ▸ hi) hi
        simp only [List.get_eq_getElem] at e1 e3
        refine hb v (e1 ▸ List.getElem_mem _) ?_
        rw [← eq_of_beq hbe, e3, g.val_ofInt hw _ e2]
      simp only [EnumVars.step, k1]
      simp only [EnumVars.init, EnumTable.str, hf]
    · intro s hs
      have hf : t.find? (fun e => e.1 == s) = none := by
        rw [List.find?_eq_none]
        intro e he hbe
        exact hs (i1 ▸ List.mem_map.2 ⟨e, he, eq_of_beq hbe⟩)
      simp only [EnumVars.step, k1]
      simp only [EnumVars.init, EnumTable.parse, hf, Option.map_none]
  · cases h2

/-- `enum int8 { A = -1, B }`: 3 is no item, `C` no name. -/
example (unknown : BitVec 8 → String) : ∃ t, enumTable ⟨true, 8⟩ (fillIn [⟨"A", none⟩, ⟨"B", none⟩] [.int (-1#64), .int 0#64]) = some t ∧
    (((EnumVars.init t).run unknown [.values, .setValue 0 3#8]).step unknown (.str 3#8)).1 = .string (unknown 3#8) :=
  ⟨[("A", 255#8), ("B", 0#8)], by decide +kernel,
    (C96_unknown ⟨true, 8⟩ (by decide) [⟨"A", none⟩, ⟨"B", none⟩] [.int (-1#64), .int 0#64] rfl _ (by decide +kernel) _ _).1 _ (by
      intro v hv
      simp only [List.mem_cons, ERes.int.injEq, List.not_mem_nil, or_false] at hv
      rcases hv with rfl | rfl <;> decide)⟩

theorem consts_values (g : GoNum) (hw : 0 < g.width) {vals : List ERes} {cs : EnumTable g.width}
    (h : List.Forall₂ (fun (r : ERes) (c : String × BitVec g.width) => ∃ v : BitVec 64, r = .int v ∧ g.holds v.toInt = true ∧ c.2 = BitVec.ofInt g.width v.toInt)
      vals cs) :
    vals.map (fun r => match r with | .int v => some v.toInt | .other => none) = (cs.map (·.2)).map fun v => some (g.val v) := by
  induction h with
  | nil => rfl
  | cons hd _ ih =>
    obtain ⟨v, rfl, e1, e2⟩ := hd
    simp only [List.map_cons, e2, GoNum.val_ofInt g hw _ e1, ih]

/-- **C96**: `XValues` returns the values of the items in the order of the declaration, as long as nobody writes to a slice that it
returned.  Missing: writes to such slices, see `C96_violated_values`. -/
theorem C96_values_partial (g : GoNum) (hw : 0 < g.width) (items : List EItem) (vals : List ERes) (hl : vals.length = items.length)
    (t : EnumTable g.width) (ht : enumTable g (fillIn items vals) = some t) (unknown : BitVec g.width → String)
    (ops : List (EnumOp g.width)) (hops : ∀ i v, EnumOp.setValue i v ∉ ops) :
    ∃ l, (((EnumVars.init t).run unknown ops).step unknown .values).1 = .values l ∧
      vals.map (fun r => match r with | .int v => some v.toInt | .other => none) = l.map fun v => some (g.val v) := by
  obtain ⟨cs, h1, h2⟩ := Option.bind_eq_some_iff.1 ht
  split at h2
  · cases h2
    obtain ⟨_, _, k3⟩ := EnumVars.run_keeps unknown (EnumVars.init t) ops
    obtain ⟨_, i2⟩ := mapM_consts g items vals t hl h1
    refine ⟨t.map (·.2), by simp only [EnumVars.step, k3 hops]; rfl, ?_⟩
    exact consts_values g hw i2
  · cases h2

/-- **C96**: a user who sorts or changes what `XValues` returned changes what it returns to everybody else. -/
theorem C96_violated_values (unknown : BitVec 8 → String) :
    ∃ t, enumTable ⟨false, 8⟩ [⟨"A", some (.ok (.int 0#64))⟩, ⟨"B", some (.ok (.int 1#64))⟩] = some t ∧
      (((EnumVars.init t).run unknown []).step unknown .values).1 = .values [0#8, 1#8] ∧
      (((EnumVars.init t).run unknown [.values, .setValue 0 1#8]).step unknown .values).1 = .values [1#8, 1#8] :=
  ⟨[("A", 0#8), ("B", 1#8)], by decide +kernel, rfl, rfl⟩

/-- `enum int8 { A = -1, B, C = 7 }`, with a user who writes to both kinds of slices. -/
example (unknown : BitVec 8 → String) :
    ∃ t, enumTable ⟨true, 8⟩ (fillIn [⟨"A", none⟩, ⟨"B", none⟩, ⟨"C", none⟩] [.int (-1#64), .int 0#64, .int 7#64]) = some t ∧
      (((EnumVars.init t).run unknown [.strings, .values, .setString 0 1 "X", .setValue 2 0#8]).step unknown .strings).1 =
        .strings ["A", "B", "C"] :=
  ⟨[("A", 255#8), ("B", 0#8), ("C", 7#8)], by decide +kernel, by
    exact (C96_names ⟨true, 8⟩ [⟨"A", none⟩, ⟨"B", none⟩, ⟨"C", none⟩] [.int (-1#64), .int 0#64, .int 7#64] rfl _ (by decide +kernel) _ _).1⟩

example : GoodItems ⟨true, 8⟩ [⟨"A", none⟩, ⟨"B", none⟩] [.int (-1#64), .int 0#64] :=
  (C96_accepted ⟨true, 8⟩ (by decide) _ _ rfl).1 ⟨[("A", 255#8), ("B", 0#8)], by decide +kernel⟩

example : ∀ k < 3, ∃ b : BitVec 8, GoNum.val ⟨false, 8⟩ b = ((k : Nat) : Int) := by decide +kernel

end Verif
