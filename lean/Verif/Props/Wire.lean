import Verif.WireDefined
import Verif.Props.Object

/-!
# C59 to C61: the bits on the wire

The specification is `Verif/Wire.lean`, the zserio wire format as a function from values to bits.
-/

namespace Verif

open Wire

theorem Elem.Wf.narrow {k : Elem} (h : k.Wf) : Narrow k := by
  cases k <;> first | trivial | exact h.2.2

/-! ## C59 builtin types -/

/-- C59: every value in the range of a builtin type has an encoding in the format; the array traits and the functions for
scalar fields write exactly it, at every position, and read it back. -/
theorem C59_scalars (k : Elem) (hk : k.Wf) (x : k.T) (hx : k.Ok x) : ∃ out, scalar k x = some out ∧ ∀ s : List Bool,
    Writes (k.traits.write x) s out ∧ Writes (k.writeS x) s out ∧
      Reads k.traits.read out s.length x ∧ Reads k.readS out s.length x := by
  obtain ⟨out, h⟩ := scalar_ok k hk x hx
  refine ⟨out, h, fun s => ?_⟩
  have h1 := scalar_trait k hk.narrow x h s
  have h2 := scalar_field k hk.narrow x h s
  obtain ⟨a, a1, a2⟩ := k.rt hk x hx s
  obtain ⟨b, b1, b2⟩ := k.scalar_rt hk x hx s
  rw [h1.unique a1] at *
  rw [a1.unique h1] at *
  have : a = b := by rw [← a1.unique h1]; exact h2.unique b1
  exact ⟨h1, h2, a2, this ▸ b2⟩

/-- C59: whatever has an encoding is written as that encoding, also values the code does not read back. -/
theorem C59_encodable (k : Elem) (hk : k.Wf) (x : k.T) (out : List Bool) (h : scalar k x = some out) (s : List Bool) :
    Writes (k.traits.write x) s out ∧ Writes (k.writeS x) s out :=
  ⟨scalar_trait k hk.narrow x h s, scalar_field k hk.narrow x h s⟩

/-- Nothing is claimed for values outside the range: -2^63 has no varint64 encoding but is written. -/
theorem C59_outside_range : scalar .varint64 (minInt64 : BitVec 64) = none ∧
    (wrun (Elem.varint64.writeS (minInt64 : BitVec 64)) []).1 = .ok () := by decide +kernel

/-- 300 as varuint16 is `1 0000001 00101100`, -1000 as varint32 is `1 1 000111 0 1101000`. -/
example : scalar .varuint16 (300#16 : BitVec 16) =
      some [true, false, false, false, false, false, false, true, false, false, true, false, true, true, false, false] ∧
    scalar .varint32 (BitVec.ofInt 32 (-1000) : BitVec 32) =
      some [true, true, false, false, false, true, true, true, false, true, true, false, true, false, false, false] ∧
    scalar (.sbits 8 5) (0xfd#8 : BitVec 8) = some [true, true, true, false, true] ∧
    scalar .float16 (0x3fc00000#32 : BitVec 32) = some (msb 16 0x3e00) ∧
    scalar .string ([0x61#8] : List Byte) = some (msb 8 1 ++ msb 8 0x61) := by decide +kernel

example : ∃ out, scalar .varuint16 (300#16 : BitVec 16) = some out ∧ ∀ s : List Bool,
    Writes (Elem.varuint16.traits.write (300#16 : BitVec 16)) s out ∧ Writes (Elem.varuint16.writeS (300#16 : BitVec 16)) s out ∧
      Reads Elem.varuint16.traits.read out s.length (300#16 : BitVec 16) ∧
      Reads Elem.varuint16.readS out s.length (300#16 : BitVec 16) :=
  C59_scalars .varuint16 trivial (300#16 : BitVec 16) (by unfold Elem.Ok LeU; decide)

/-! ## C60 packed arrays of integers -/

/-- The length in front of an array. -/
def Wire.lengthIf (auto : Bool) (n : Nat) : Option (List Bool) := if auto then varsize n else some []

/-- A packed array of integers: the length, if the schema does not give it, and the elements. -/
def Wire.packedArray (auto : Bool) (dec : Decide) (os : List Occ) : Option (List Bool) := do
  let h ← lengthIf auto os.length
  let b ← layAll dec (os.map (.leaf [])) 0
  some (h ++ b)

/-- C60: there is a decision procedure that is sound, and that agrees with the format about calm sequences, such that
every packed array of integers in range is written in the layout of the format with this decision, and read back. -/
theorem C60_packed_arrays : ∃ dec : Decide, Sound dec ∧ dec.Total ∧ careful.Le dec ∧
    ∀ (k : Elem), k.Wf → k.isDelta = true → ∀ (cfg : ArrCfg), cfg.isPacked = true → cfg.hasCheck = false →
    ∀ es : List k.T, (∀ e ∈ es, k.Ok e) → LenOk cfg es.length →
    ∃ out, packedArray cfg.isAuto dec (es.map fun e => ⟨k, e⟩) = some out ∧ ∀ s : List Bool,
      Writes (Arr.marshalW k.traits cfg es) s out ∧ Reads (Arr.unmarshal k.traits cfg) out s.length es := by
  refine ⟨goDec, goDec_sound, goDec_total, careful_go, ?_⟩
  intro k hk hi cfg hp hc es hok hlen
  obtain ⟨b, hb⟩ := layAll_def goDec_total (ps := (es.map fun e => (⟨k, e⟩ : Occ)).map (.leaf [])) (fun p hp => by
    obtain ⟨o, ho, rfl⟩ := List.mem_map.mp hp
    obtain ⟨e, he, rfl⟩ := List.mem_map.mp ho
    exact scalar_ok k hk e (hok e he)) 0
  obtain ⟨a, ha, hw⟩ : ∃ a, lengthIf cfg.isAuto es.length = some a ∧ ∀ s, Writes (Arr.header cfg es.length) s a := by
    unfold lengthIf Arr.header
    unfold LenOk at hlen
    cases hau : cfg.isAuto with
    | false => exact ⟨[], rfl, Writes.pure⟩
    | true =>
      rw [hau, if_pos rfl] at hlen
      obtain ⟨a, ha⟩ := varsize_some hlen
      refine ⟨a, ha, fun s => ?_⟩
      rw [if_pos rfl]
      exact varsize_writes ha s
  have hall : ∀ s, Writes (Arr.marshalW k.traits cfg es) s (a ++ b) := by
    intro s
    refine marshalW_writes (hw s) (fun _ _ => ?_) (fun h => by rw [hp] at h; cases h) (fun h => ?_)
    · rw [hc]
      exact seq_packed k.traits (fun e => ⟨k, e⟩) (fun _ _ => rfl) (initAll_traits k) (fun _ _ => ⟨hi, hk.narrow⟩) hb
    · subst h
      exact (Option.some.inj hb).symm
  refine ⟨a ++ b, ?_, fun s => ⟨hall s, ?_⟩⟩
  · unfold packedArray
    rw [List.length_map, ha]
    simp only [hb, Option.bind_eq_bind, Option.bind_some]
  · obtain ⟨o, o1, o2⟩ := C21_packed_roundtrip_partial k hk (Elem.isDelta_intLike hi) cfg hp es hok hlen s
    rw [(hall s).unique o1]
    exact o2

/-- C60 for calm sequences (neighbours on the same side of zero, no value whose size is reported wrongly): the array is
written exactly as the format prescribes.  Missing: sequences that cross zero, see below. -/
theorem C60_standard_partial (k : Elem) (hk : k.Wf) (hi : k.isDelta = true) (cfg : ArrCfg) (hp : cfg.isPacked = true)
    (hc : cfg.hasCheck = false) (es : List k.T) (hok : ∀ e ∈ es, k.Ok e) (hlen : LenOk cfg es.length)
    (hcalm : calm (es.map fun e => ⟨k, e⟩) = true) :
    ∃ out, packedArray cfg.isAuto standard (es.map fun e => ⟨k, e⟩) = some out ∧
      ∀ s, Writes (Arr.marshalW k.traits cfg es) s out := by
  obtain ⟨dec, _, _, hle, h⟩ := C60_packed_arrays
  obtain ⟨out, ho, hs⟩ := h k hk hi cfg hp hc es hok hlen
  refine ⟨out, ?_, fun s => (hs s).1⟩
  have hd : dec (es.map fun e => ⟨k, e⟩) = standard (es.map fun e => ⟨k, e⟩) := by
    refine hle _ _ ?_
    unfold careful
    rw [if_pos hcalm]
  have hch : ∀ j, chunk dec (es.map fun e => ⟨k, e⟩) j = chunk standard (es.map fun e => ⟨k, e⟩) j := by
    intro j
    unfold chunk
    rw [hd]
  have hl : ∀ (ps : List Occ) (all : List Nat → List Occ) (seen : List Nat → Nat) (pos : Nat),
      all [] = es.map (fun e => ⟨k, e⟩) → lay dec all seen (ps.map (.leaf [])) pos = lay standard all seen (ps.map (.leaf [])) pos := by
    intro ps
    induction ps with
    | nil => intros; rfl
    | cons o ps ih =>
      intro all seen pos he
      simp only [List.map_cons, lay, he, hch]
      congr 1
      funext a
      rw [ih all _ _ he]
  unfold packedArray layAll at ho ⊢
  rwa [hl _ _ _ _ (occs_leaves _)] at ho

/-- A sequence that crosses zero between two neighbours less than 2^63 apart is never packed, whatever else it contains
and however long it is.  (Here `size` counts the elements in front.) -/
theorem C60_violated_zero_crossing (k : Elem) (hk : k.Wf) (hi : k.isDelta = true) (cfg : ArrCfg) (hp : cfg.isPacked = true)
    (hc : cfg.hasCheck = false) (ha : cfg.isAuto = false) (xs ys : List k.T) (a b : k.T)
    (hok : ∀ e ∈ xs ++ a :: b :: ys, k.Ok e) (hlen : LenOk cfg (xs ++ a :: b :: ys).length)
    (hs : sameSide (num k a) (num k b) = false) (hd : (num k b - num k a).natAbs < 2 ^ 63) (s : List Bool) :
    ∃ out, Writes (Arr.marshalW k.traits cfg (xs ++ a :: b :: ys)) s (false :: out) := by
  have hpl : ∀ es : List k.T, goPlan (es.map fun e => (⟨k, e⟩ : Occ)) = none → (∀ e ∈ es, k.Ok e) → LenOk cfg es.length → es ≠ [] →
      ∃ out, Writes (Arr.marshalW k.traits cfg es) s (false :: out) := by
    intro es hg hok hlen hne
    obtain ⟨e, es, rfl⟩ := List.exists_cons_of_ne_nil hne
    obtain ⟨b, hb⟩ := layAll_def goDec_total (ps := ((e :: es).map fun e => (⟨k, e⟩ : Occ)).map (.leaf [])) (fun p hp => by
      obtain ⟨o, ho, rfl⟩ := List.mem_map.mp hp
      obtain ⟨e, he, rfl⟩ := List.mem_map.mp ho
      exact scalar_ok k hk e (hok e he)) 0
    have hb' := hb
    unfold layAll at hb'
    simp only [List.map_cons, lay, Option.bind_eq_bind, Option.bind_eq_some_iff] at hb'
    obtain ⟨c, hcc, d, hdd, he⟩ := hb'
    injection he with he
    have hcf : ∃ r, c = false :: r := by
      unfold chunk at hcc
      have ho : occs [] (Piece.leaf [] ⟨k, e⟩ :: (es.map fun e => (⟨k, e⟩ : Occ)).map (.leaf [])) =
          (e :: es).map fun e => (⟨k, e⟩ : Occ) := occs_leaves ((e :: es).map fun e => (⟨k, e⟩ : Occ))
      rw [ho] at hcc
      simp only [goDec, hg] at hcc
      simp only [List.map_cons, List.getElem?_cons_zero, Option.bind_eq_bind, Option.bind_some,
        Option.bind_eq_some_iff] at hcc
      obtain ⟨r, _, hr⟩ := hcc
      exact ⟨r, (Option.some.inj hr).symm⟩
    obtain ⟨r, rfl⟩ := hcf
    refine ⟨r ++ d, ?_⟩
    have hw : Writes (Arr.header cfg (e :: es).length) s [] := by
      unfold Arr.header
      rw [ha]
      exact Writes.pure s
    have := marshalW_writes (tr := k.traits) (b := b) hw (fun _ _ => by
      rw [hc]
      exact seq_packed k.traits (fun e => ⟨k, e⟩) (fun _ _ => rfl) (initAll_traits k) (fun _ _ => ⟨hi, hk.narrow⟩) hb)
      (fun h => by rw [hp] at h; cases h) (fun h => by cases h)
    rw [← he] at this
    exact this
  refine hpl _ ?_ hok hlen (by simp)
  rw [List.map_append, List.map_cons, List.map_cons]
  refine crossing_unpacked _ _ _ _ ?_ hs hd
  intro o ho
  rw [← List.map_cons (f := fun e => (⟨k, e⟩ : Occ)), ← List.map_cons (f := fun e => (⟨k, e⟩ : Occ)), ← List.map_append] at ho
  obtain ⟨e, _, rfl⟩ := List.mem_map.mp ho
  exact ⟨hi, hk.narrow⟩

/-- Twenty int16 values alternating between -1 and 0. -/
def exCrossing : List (BitVec 16) := (List.range 20).map fun i => if i % 2 = 0 then 0xffff#16 else 0#16

/-- C60 does not hold as stated: the format packs this sequence into 61 bits, the code writes 321. -/
theorem C60_violated_not_smallest :
    ((packedArray false standard (exCrossing.map fun e => ⟨.sbits 16 16, e⟩)).map List.length = some 61) ∧
    (wrun (Arr.marshalW (Elem.sbits 16 16).traits ⟨20, false, true, false, false⟩ exCrossing) []).1 = .ok () ∧
    (wrun (Arr.marshalW (Elem.sbits 16 16).traits ⟨20, false, true, false, false⟩ exCrossing) []).2.length = 321 := by
  decide +kernel

/-- 100, 101, 103, 102 as varuint32: packed, two bits, first value, then 1, 2 and -1 in three bits each. -/
example : packedArray true standard ([100#32, 101#32, 103#32, 102#32].map fun e => ⟨.varuint32, e⟩) =
    some (msb 8 4 ++ true :: msb 6 2 ++ msb 8 100 ++ msb 3 1 ++ msb 3 2 ++ msb 3 7) := by decide +kernel

example : calm (([100#32, 101#32, 103#32, 102#32] : List (BitVec 32)).map fun e => ⟨.varuint32, e⟩) = true := by decide +kernel

example : ∃ out, packedArray true standard (([100#32, 101#32, 103#32, 102#32] : List (BitVec 32)).map fun e => ⟨.varuint32, e⟩) =
      some out ∧ ∀ s, Writes (Arr.marshalW Elem.varuint32.traits ⟨0, true, true, false, false⟩
        ([100#32, 101#32, 103#32, 102#32] : List (BitVec 32))) s out := by
  have hok : ∀ e ∈ ([100#32, 101#32, 103#32, 102#32] : List (BitVec 32)), Elem.varuint32.Ok e := by
    intro e he
    change e ∈ ([100#32, 101#32, 103#32, 102#32] : List (BitVec 32)) at he
    simp only [List.mem_cons, List.not_mem_nil, or_false] at he
    rcases he with rfl | rfl | rfl | rfl <;> (show LeU maxVaruint32 (_ : BitVec 32); unfold LeU; decide)
  have hlen : LenOk ⟨0, true, true, false, false⟩ ([100#32, 101#32, 103#32, 102#32] : List (BitVec 32)).length := by
    unfold LenOk; decide
  have hcalm : calm (([100#32, 101#32, 103#32, 102#32] : List (BitVec 32)).map fun e => ⟨.varuint32, e⟩) = true := by
    decide +kernel
  exact C60_standard_partial .varuint32 trivial rfl ⟨0, true, true, false, false⟩ rfl rfl
    ([100#32, 101#32, 103#32, 102#32] : List (BitVec 32)) hok hlen hcalm

/-! ## C61 generated objects -/

/-- C61: with the same decision as in C60, for every schema in the domain `SchemaSafe`, every type of it and every value
that has an encoding in the format (with union tags counted from 1), `MarshalZserio` writes exactly this encoding, at
every position. -/
theorem C61_objects_partial : ∃ dec : Decide, Sound dec ∧ dec.Total ∧ careful.Le dec ∧
    ∀ (P : Nat → Prop) (schema : Nat → Decl), SchemaSafe P schema → ∀ (n name : Nat) (v : Val) (s out : List Bool),
    (format 1 dec schema n name).plain v s.length = some out → Writes ((methods schema n name).marshal v) s out :=
  ⟨goDec, goDec_sound, goDec_total, careful_go, fun _ _ h n name v s out ho => (schema_writes h n name).1 v s out ho⟩

/-- C61 against the zserio format itself: no unions, and packed sequences are calm. -/
theorem C61_standard_partial (P : Nat → Prop) (schema : Nat → Decl) (h : SchemaSafe P schema)
    (hu : ∀ name fs, schema name ≠ .union fs) (n name : Nat) (v : Val) (s out : List Bool)
    (ho : (format 0 careful schema n name).plain v s.length = some out) :
    (format 0 standard schema n name).plain v s.length = some out ∧ Writes ((methods schema n name).marshal v) s out := by
  refine ⟨(format_le careful_standard (b := 0) (b' := 0) (Or.inl rfl) n name).plain v _ _ ho, ?_⟩
  exact (schema_writes h n name).1 v s out ((format_le careful_go (b := 0) (b' := 1) (Or.inr hu) n name).plain v _ _ ho)

/-- C61 for schemas without unions and packed arrays, where nothing is to be decided: every value of the Go type that
`MarshalZserio` accepts is written as the zserio format prescribes, and read back. -/
theorem C61_unpacked_partial (P : Nat → Prop) (schema : Nat → Decl) (h : SchemaSafe P schema) (hw : ∀ name, (schema name).Wf)
    (hu : ∀ name fs, schema name ≠ .union fs) (hp : ∀ name, Unpacked (schema name)) (n name : Nat) (old v : Val)
    (ht : Typed schema n name old v) (s : List Bool) (hs : (wrun ((methods schema n name).marshal v) s).1 = .ok ()) :
    ∃ out, (format 0 standard schema n name).plain v s.length = some out ∧ Writes ((methods schema n name).marshal v) s out ∧
      Reads ((methods schema n name).unmarshal old) out s.length v := by
  have hacc := schema_accept schema hw n name old v s ht hs
  obtain ⟨out, ho⟩ := (schema_defined goDec_total (b := 1) hw h hu n name).plain old v hacc s.length
  have hwr := (schema_writes h n name).1 v s out ho
  refine ⟨out, ?_, hwr, ?_⟩
  · rw [format_plain (dec' := goDec) hp]
    exact (format_le (fun _ _ h => h) (b := 1) (b' := 0) (Or.inr hu) n name).plain v _ _ ho
  · obtain ⟨o, o1, o2⟩ := (schema_laws schema hw n name).1 old v hacc s
    rw [hwr.unique o1]
    exact o2

/-- C61 with packed arrays: every accepted value has an encoding, with a sound decision, and it is what is written. -/
theorem C61_accepted_partial (P : Nat → Prop) (schema : Nat → Decl) (h : SchemaSafe P schema) (hw : ∀ name, (schema name).Wf)
    (hu : ∀ name fs, schema name ≠ .union fs) (n name : Nat) (old v : Val)
    (ht : Typed schema n name old v) (s : List Bool) (hs : (wrun ((methods schema n name).marshal v) s).1 = .ok ()) :
    ∃ dec out, Sound dec ∧ careful.Le dec ∧ (format 0 dec schema n name).plain v s.length = some out ∧
      Writes ((methods schema n name).marshal v) s out ∧ Reads ((methods schema n name).unmarshal old) out s.length v := by
  have hacc := schema_accept schema hw n name old v s ht hs
  obtain ⟨out, ho⟩ := (schema_defined goDec_total (b := 1) hw h hu n name).plain old v hacc s.length
  have hwr := (schema_writes h n name).1 v s out ho
  refine ⟨goDec, out, goDec_sound, careful_go, ?_, hwr, ?_⟩
  · exact (format_le (fun _ _ h => h) (b := 1) (b' := 0) (Or.inr hu) n name).plain v _ _ ho
  · obtain ⟨o, o1, o2⟩ := (schema_laws schema hw n name).1 old v hacc s
    rw [hwr.unique o1]
    exact o2

/-- The types of the example schema with packed arrays: `Point` and `Color`. -/
def exPackable (n : Nat) : Prop := n = 0 ∨ n = 1

theorem exSchema_safe : SchemaSafe exPackable exSchema
  | 0 => by
    refine ⟨?_, fun _ => ?_⟩ <;>
    · intro f hf
      simp only [exPoint, List.mem_cons, List.not_mem_nil, or_false] at hf
      rcases hf with rfl | rfl | rfl | rfl <;>
      · refine ⟨by decide, fun k hk => ?_, fun n hn => by cases hn⟩
        injection hk with hk
        subst hk
        simp [Narrow, Elem.isDelta]
  | 1 => ⟨by show 8 ≤ 64; decide, fun _ => ⟨by show 8 ≤ 64; decide, rfl⟩⟩
  | 2 => by
    refine ⟨?_, fun h => by rcases h with h | h <;> simp at h⟩
    intro f hf
    simp only [exScene, List.mem_cons, List.not_mem_nil, or_false] at hf
    rcases hf with rfl | rfl | rfl | rfl | rfl | rfl | rfl <;>
    · refine ⟨by decide, fun k hk => ?_, fun n hn => ?_⟩
      · cases hk
        try simp [Narrow, Elem.isDelta]
      · cases hn
        try simp [exPackable]
  | 3 => by
    refine ⟨?_, fun h => by rcases h with h | h <;> simp at h⟩
    intro f hf
    simp only [List.mem_cons, List.not_mem_nil, or_false] at hf
    rcases hf with rfl | rfl <;>
    · refine ⟨by decide, fun k hk => ?_, fun n hn => ?_⟩
      · cases hk
        try simp [Narrow]
      · cases hn
        try simp
  | 4 => by
    refine ⟨⟨⟨?_, by decide, ?_⟩, ?_⟩, fun h => by rcases h with h | h <;> simp at h⟩
    · intro c hc
      simp only [List.mem_cons, List.not_mem_nil, or_false] at hc
      rcases hc with rfl | rfl
      · exact ⟨1, rfl⟩
      · exact ⟨2, rfl⟩
    · intro _ c hc
      simp only [List.mem_cons, List.not_mem_nil, or_false] at hc
      rcases hc with rfl | rfl <;> rfl
    · intro f hf
      simp only [choiceFields, List.filterMap_cons, List.filterMap_nil, Option.toList, List.mem_append, List.mem_cons,
        List.not_mem_nil, or_false] at hf
      rcases hf with (rfl | rfl) | rfl <;>
      · refine ⟨by decide, fun k hk => ?_, fun n hn => by cases hn⟩
        injection hk with hk
        subst hk
        simp [Narrow]
  | _ + 5 => ⟨fun _ h => (by cases h), fun h => by rcases h with h | h <;> simp at h⟩

/-- The encoding of the scene: every sequence in it is calm. -/
example : ((format 0 careful exSchema 2 2).plain (.obj 0 [] exSceneVals) 0).map List.length = some 202 := by decide +kernel

/-- With the hypotheses of C61_standard_partial, for the schema without its union. -/
def exNoUnion : Nat → Decl := fun n => if n = 3 then .struct [] else exSchema n

theorem exNoUnion_safe : SchemaSafe exPackable exNoUnion := by
  intro name
  unfold exNoUnion
  split
  · rename_i h
    subst h
    exact ⟨fun _ h => (by cases h), fun h => by rcases h with h | h <;> simp at h⟩
  · exact exSchema_safe name

theorem exNoUnion_wf (name : Nat) : (exNoUnion name).Wf := by
  unfold exNoUnion
  split
  · trivial
  · exact exSchema_wf name

theorem exNoUnion_unions : ∀ name fs, exNoUnion name ≠ .union fs
  | 0, _, h | 1, _, h | 2, _, h | 3, _, h | 4, _, h => by cases h
  | n + 5, _, h => by
    unfold exNoUnion at h
    rw [if_neg (by omega)] at h
    cases h

/-- The scene is written in the zserio format. -/
example : ∃ out, out.length = 202 ∧ (format 0 standard exNoUnion 2 2).plain (.obj 0 [] exSceneVals) 0 = some out ∧
    Writes ((methods exNoUnion 2 2).marshal (.obj 0 [] exSceneVals)) [] out := by
  have h : ((format 0 careful exNoUnion 2 2).plain (.obj 0 [] exSceneVals) 0).map List.length = some 202 := by decide +kernel
  obtain ⟨out, ho, hl⟩ := Option.map_eq_some_iff.mp h
  exact ⟨out, hl, C61_standard_partial exPackable exNoUnion exNoUnion_safe exNoUnion_unions 2 2 _ [] out ho⟩

/-- Only `Point`. -/
def exOnlyPoint : Nat → Decl := fun n => if n = 0 then .struct exPoint else .struct []

/-- C61_unpacked_partial for a point. -/
example : ∃ out, (format 0 standard exOnlyPoint 1 0).plain (exPt 3#8 1000#64 (.some (.str [0x61#8]))) 0 = some out ∧
    Writes ((methods exOnlyPoint 1 0).marshal (exPt 3#8 1000#64 (.some (.str [0x61#8])))) [] out ∧
    Reads ((methods exOnlyPoint 1 0).unmarshal exPtOld) out 0 (exPt 3#8 1000#64 (.some (.str [0x61#8]))) := by
  refine C61_unpacked_partial (fun _ => False) exOnlyPoint ?_ ?_ ?_ ?_ 1 0 exPtOld _ ?_ [] (by decide +kernel)
  · intro name
    refine ⟨?_, fun h => h.elim⟩
    unfold exOnlyPoint
    split
    · intro f hf
      simp only [exPoint, List.mem_cons, List.not_mem_nil, or_false] at hf
      rcases hf with rfl | rfl | rfl | rfl <;>
      · refine ⟨by decide, fun k hk => ?_, fun n hn => by cases hn⟩
        injection hk with hk
        subst hk
        simp [Narrow]
    · exact fun _ h => by cases h
  · intro name
    unfold exOnlyPoint
    split
    · exact exSchema_wf 0
    · trivial
  · intro name fs h
    unfold exOnlyPoint at h
    split at h <;> cases h
  · intro name
    unfold exOnlyPoint
    split
    · intro f hf
      simp only [exPoint, List.mem_cons, List.not_mem_nil, or_false] at hf
      rcases hf with rfl | rfl | rfl | rfl <;> decide
    · exact fun _ h => by cases h
  · exact exPt_typed 0

/-- C61 does not hold as stated for unions: `Shape` with `radius` 7 is `00 07` in zserio, where the members of a union are
numbered from 0, and the code writes `01 07`. -/
theorem C61_violated_union_tag :
    (format 0 standard exSchema 1 3).plain (.obj 1 [] [.bits 8 7#8, .none]) 0 = some (msb 8 0 ++ msb 8 7) ∧
    wrun ((methods exSchema 1 3).marshal (.obj 1 [] [.bits 8 7#8, .none])) [] = (.ok (), msb 8 1 ++ msb 8 7) := by
  decide +kernel

/-- `struct A { bit:1 b; align(8) optional uint8 x; };  struct B { packed A as[]; };` -/
def exAligned : Nat → Decl
  | 0 => .struct [⟨noExprs, 0, false, .prim (.bits 8 1), none, false⟩, ⟨noExprs, 8, true, .prim (.bits 8 8), none, false⟩]
  | _ => .struct [⟨noExprs, 0, false, .comp 0, some true, false⟩]

/-- C61 does not hold as stated: an aligned optional field has its presence flag behind the padding in an object and
before the padding in a packed array of objects, so at most one of them follows the format. -/
theorem C61_violated_flag_order :
    let v : Val := .obj 0 [] [.bits 8 1#8, .some (.bits 8 5#8)]
    wrun ((methods exAligned 1 0).marshal v) [] = (.ok (), true :: List.replicate 7 false ++ true :: msb 8 5) ∧
    wrun ((methods exAligned 2 1).marshal (.obj 0 [] [.list [v]])) [] =
      (.ok (), msb 8 1 ++ false :: true :: true :: List.replicate 5 false ++ false :: msb 8 5) := by
  decide +kernel

end Verif
