import Verif.Discipline
import Verif.Props.Codec

/-!
# C09-C14, C44, C46: alignment, the byte stream, trailing data, truncation, sink faults, message sequences
-/

namespace Verif

/-! ## C09 alignment -/

/-- `k` is the number of padding bits: the least number that takes the position to a multiple of `b`. -/
def IsPad (pos b k : Nat) : Prop := b ∣ pos + k ∧ ∀ j, b ∣ pos + j → k ≤ j

theorem isPad_padBits {pos b : Nat} (hb : 0 < b) : IsPad pos b (padBits pos b) :=
  ⟨(padBits_spec hb).1, (padBits_spec hb).2.2⟩

theorem IsPad.eq {pos b k : Nat} (hb : 0 < b) (h : IsPad pos b k) : k = padBits pos b :=
  Nat.le_antisymm (h.2 _ (padBits_spec hb).1) ((padBits_spec hb).2.2 k h.1)

/-- C09, writer: zeros up to the next multiple, and the new position is returned. -/
theorem C09_writer (b : Nat) (hb : 0 < b) (hb8 : b < 256) (s : List Bool) :
    ∃ k, IsPad s.length b k ∧ wrun (alignW b) s = (.ok (s.length + k), s ++ List.replicate k false) :=
  ⟨_, isPad_padBits hb, wrun_alignW hb hb8 s⟩

/-- C09, reader: it skips as many bits as the writer appends at the same position, whatever they are, and returns the
new position. -/
theorem C09_reader (b : Nat) (hb : 0 < b) (hb8 : b < 256) (pos k : Nat) (hk : IsPad pos b k) (pad rest : List Bool)
    (hp : pad.length = k) :
    rrun (alignR b) ⟨pad ++ rest, pos⟩ = (.ok (pos + k), ⟨rest, pos + k⟩) := by
  rw [rrun_alignR hb hb8 pad rest pos (by rw [hp]; exact hk.eq hb), hp]

/-- C09, reader: too little input is an error. -/
theorem C09_reader_short (b : Nat) (hb : 0 < b) (hb8 : b < 256) (pos k : Nat) (hk : IsPad pos b k) (l : List Bool)
    (hl : l.length < k) : ∃ st, rrun (alignR b) ⟨l, pos⟩ = (.error .eof, st) := by
  unfold alignR
  rw [rrun_bind, rrun_pos]
  dsimp only
  rw [rrun_bind, rrun_liftExcept, discard_eq hb hb8, ← hk.eq hb]
  dsimp only
  rw [if_neg (by omega), rrun_bind]
  have : rrun (Rd.bits k) ⟨l, pos⟩ = (.error .eof, (ROp.fail (.bits k) ⟨l, pos⟩).2) :=
    (rrun_call (.bits k) ⟨l, pos⟩).trans (if_neg (by show ¬ k ≤ l.length; omega))
  rw [this]
  exact ⟨_, rfl⟩

/-- C09: `CountAlignBits` is the same number. -/
theorem C09_count (pos b : Nat) (hb : 0 < b) : ∃ k, IsPad pos b k ∧ countAlignBits pos b = .ok k :=
  ⟨_, isPad_padBits hb, countAlignBits_eq hb⟩

/-- C09: aligning twice equals aligning once, on both sides. -/
theorem C09_idempotent (b : Nat) (hb : 0 < b) (hb8 : b < 256) (s : List Bool) (st : RState) :
    wrun (alignW b >>= fun _ => alignW b) s = wrun (alignW b) s ∧
    rrun (alignR b >>= fun _ => alignR b) st = rrun (alignR b) st := by
  have hz : ∀ n, padBits (n + padBits n b) b = 0 := by
    intro n
    have := (padBits_spec (pos := n + padBits n b) hb).2.2 0 (by simpa using (padBits_spec hb).1)
    omega
  constructor
  · rw [wrun_bind, wrun_alignW hb hb8]
    dsimp only
    rw [wrun_alignW hb hb8]
    simp [hz]
  · obtain ⟨l, pos⟩ := st
    rw [rrun_bind]
    by_cases hl : l.length < padBits pos b
    · obtain ⟨st, h⟩ := C09_reader_short b hb hb8 pos _ (isPad_padBits hb) l hl
      rw [h]
    · have hsplit : l = l.take (padBits pos b) ++ l.drop (padBits pos b) := (List.take_append_drop _ _).symm
      have hlen : (l.take (padBits pos b)).length = padBits pos b := by rw [List.length_take]; omega
      rw [hsplit, C09_reader b hb hb8 pos _ (isPad_padBits hb) _ _ hlen]
      dsimp only
      have := C09_reader b hb hb8 (pos + padBits pos b) 0 (by rw [← hz pos]; exact isPad_padBits hb) []
        (l.drop (padBits pos b)) rfl
      simpa using this

/-- C09: the two sides agree: what the writer appended the reader skips, ending at the same position. -/
theorem C09_agree (b : Nat) (hb : 0 < b) (hb8 : b < 256) (s : List Bool) :
    ∃ out, wrun (alignW b) s = (.ok (s.length + out.length), s ++ out) ∧
      Reads (alignR b) out s.length (s.length + out.length) := by
  obtain ⟨k, hk, h⟩ := C09_writer b hb hb8 s
  refine ⟨List.replicate k false, by rw [h]; simp, ?_⟩
  intro rest
  rw [C09_reader b hb hb8 s.length k hk _ rest (by simp)]
  simp

example : wrun (alignW 8) [true, true, true] = (.ok 8, [true, true, true, false, false, false, false, false]) := by
  decide +kernel
example : IsPad 3 8 5 := ⟨by decide, fun j hj => by omega⟩

/-! ## C46 alignTo -/

/-- C46: the least multiple of `a` that is at least `p`. -/
theorem C46_alignTo (a p : Int) (ha : 0 < a) (hp : 0 < p) :
    a ∣ alignTo a p ∧ p ≤ alignTo a p ∧ ∀ m, a ∣ m → p ≤ m → alignTo a p ≤ m := by
  unfold alignTo
  rw [if_neg (by omega)]
  have h1 := Int.mul_ediv_add_emod (p - 1) a
  have h2 := Int.emod_nonneg (p - 1) (show a ≠ 0 by omega)
  have h3 := Int.emod_lt_of_pos (p - 1) ha
  refine ⟨Int.dvd_mul_left _ _, ?_, ?_⟩
  · rw [Int.add_mul, Int.mul_comm]; omega
  · rintro m ⟨c, rfl⟩ hm
    have : (p - 1) / a < c := by
      apply Int.ediv_lt_of_lt_mul ha
      rw [Int.mul_comm]; omega
    rw [Int.mul_comm a c]
    exact Int.mul_le_mul_of_nonneg_right (by omega) (by omega)

/-- C46: outside the positive range the position is returned unchanged. -/
theorem C46_alignTo_trivial (a p : Int) (h : p ≤ 0 ∨ a = 0) : alignTo a p = p := if_pos h

/-- C46: agreement with `CountAlignBits`. -/
theorem C46_agrees (a p : Nat) (ha : 0 < a) : ∃ k : Nat, countAlignBits p a = .ok k ∧ alignTo a p = p + k := by
  refine ⟨_, countAlignBits_eq ha, ?_⟩
  obtain ⟨s1, s2, s3⟩ := padBits_spec (pos := p) ha
  by_cases hp : p = 0
  · subst hp
    have : padBits 0 a = 0 := Nat.le_zero.mp (s3 0 (by simp))
    rw [this]; rfl
  · obtain ⟨a1, a2, a3⟩ := C46_alignTo (a : Int) (p : Int) (by omega) (by omega)
    apply Int.le_antisymm
    · exact a3 _ (by exact_mod_cast s1) (by omega)
    · obtain ⟨m, hm⟩ : ∃ m : Nat, alignTo a p = m := ⟨(alignTo a p).toNat, by omega⟩
      rw [hm] at a1 a2 ⊢
      have hd : a ∣ m := by exact_mod_cast a1
      have := s3 (m - p) (by rwa [show p + (m - p) = m by omega])
      omega

example : alignTo 8 17 = 24 := by decide

/-! ## C11 the byte-and-cache stream -/

/-- C11, writer: a program that stays inside the interface contract sees the same responses as on a plain list of
bits, and after `Close` the sink holds those bits, padded with zeros to a whole byte. -/
theorem C11_writer {α : Type} (p : WM α) (hp : p.Safe) :
    (p.runC noFault BW.new).1 = (p.run []).1 ∧
    ∃ w k, BWM.go (bwClose noFault) (p.runC noFault BW.new).2 = (.ok (), w) ∧ IsPad (p.run []).2.length 8 k ∧
      bytesBits w.out = (p.run []).2 ++ List.replicate k false := by
  obtain ⟨h1, h2⟩ := WM.runC_sim hp BW.new [] BW.new_rep
  obtain ⟨w, h3, h4⟩ := bwClose_ok _ _ h2
  exact ⟨h1, w, _, h3, isPad_padBits (by omega), h4⟩

/-- C11, reader: a program that never asks for zero bits sees the same responses (values and errors) as on the plain
list of bits of the input. -/
theorem C11_reader_partial {α : Type} (p : RM α) (hp : p.Safe) (b : List Byte) :
    (p.runC (BR.new b)).1 = (p.run ⟨bytesBits b, 0⟩).1 :=
  (RM.runC_sim hp _ _ (BR.new_rep b)).1

/-- Why `ReadBits(0)` is excluded: at a byte boundary bitio returns whatever is left in its cache.  Reading 3, 5 and 0
bits of the byte 0xff gives 31 for the zero-width read. -/
theorem C11_readBits_zero :
    unmarshal [0xff#8] (do let _ ← Rd.bits 3; let _ ← Rd.bits 5; Rd.bits 0) = .ok 31#64 ∧
    (rrun (do let _ ← Rd.bits 3; let _ ← Rd.bits 5; Rd.bits 0) ⟨bytesBits [0xff#8], 0⟩).1 = .ok 0#64 := by
  constructor <;> decide +kernel

/-- C11: the hypotheses hold for all ztype codecs; here a mixed program. -/
example : Wr.Safe (do writeUnsignedBits 5#64 3; writeVarsize 300#64; let _ ← alignW 16; writeString [0x41#8]; pure ()) :=
  .bind (writeUnsignedBits_good _ (by omega)).safe fun _ => .bind (writeVarsize_good _).safe fun _ =>
    .bind (alignW_good (by omega)).safe fun _ => .bind (writeString_good _).safe fun _ => .pure ()

example : marshal (do writeUnsignedBits 5#64 3; writeUnsignedBits 0x1ff#64 9; Wr.bytes [0xff#8]) =
    .ok [0xbf#8, 0xff#8, 0xf0#8] := by decide +kernel

/-! ## C10 Marshal -/

/-- C10: success returns the written bits, padded to a byte with zero bits. -/
theorem C10_marshal_ok (m : Wr Unit) (hm : m.Safe) (s : List Bool) (h : wrun m [] = (.ok (), s)) :
    ∃ bytes k, marshal m = .ok bytes ∧ k < 8 ∧ bytesBits bytes = s ++ List.replicate k false ∧
      bytes.length = (s.length + 7) / 8 := by
  obtain ⟨h1, w, k, h2, h3, h4⟩ := C11_writer (ExceptT.run m) hm
  unfold wrun at h
  rw [h] at h1 h3 h4
  have hk : k < 8 := by
    have := h3.eq (by omega)
    rw [this]; exact (padBits_spec (by omega)).2.1
  refine ⟨w.out, k, ?_, hk, h4, ?_⟩
  · unfold marshal
    cases hq : WM.runC noFault (ExceptT.run m) BW.new with
    | mk r w1 =>
      rw [hq] at h1 h2
      dsimp only at h1 h2
      rw [h1]
      dsimp only
      rw [h2]
  · have := congrArg List.length h4
    rw [bytesBits_length, List.length_append, List.length_replicate] at this
    dsimp only at this
    omega

/-- C10: failure returns the error and no bytes. -/
theorem C10_marshal_error (m : Wr Unit) (hm : m.Safe) (e : Err) (s : List Bool) (h : wrun m [] = (.error e, s)) :
    marshal m = .error e := by
  obtain ⟨h1, _⟩ := C11_writer (ExceptT.run m) hm
  unfold wrun at h
  rw [h] at h1
  unfold marshal
  cases hq : WM.runC noFault (ExceptT.run m) BW.new with
  | mk r w1 =>
    rw [hq] at h1
    dsimp only at h1
    rw [h1]

/-- C10: a codec that round-trips on the flat stream round-trips through `Marshal` and `Unmarshal`, whatever bytes
follow. -/
theorem C10_roundtrip {α : Type} (w : Wr Unit) (r : Rd α) (v : α) (hw : w.Safe) (hr : r.Safe) (h : RoundTrip w r v) :
    ∃ bytes, marshal w = .ok bytes ∧ ∀ t, unmarshal (bytes ++ t) r = .ok v := by
  obtain ⟨out, h1, h2⟩ := h []
  obtain ⟨bytes, k, h3, _, h4, _⟩ := C10_marshal_ok w hw out (by simpa [Writes] using h1)
  refine ⟨bytes, h3, fun t => ?_⟩
  unfold unmarshal
  rw [C11_reader_partial _ hr, bytesBits_append, h4, List.append_assoc]
  have := h2 (List.replicate k false ++ bytesBits t)
  unfold rrun at this
  rw [show ([] : List Bool).length = 0 from rfl] at this
  rw [this]

example : ∃ bytes, marshal (writeVarsize 300#64) = .ok bytes ∧ bytes.length = 2 := ⟨[0x82#8, 0x2c#8], by decide +kernel, rfl⟩

/-! ## C12 trailing data -/

/-- C12, flat: a decoder that reports the errors it sees ignores whatever follows. -/
theorem C12_flat {α : Type} (r : Rd α) (hr : r.Strict) (l rest : List Bool) (pos pos' : Nat) (v : α)
    (h : rrun r ⟨l, pos⟩ = (.ok v, ⟨rest, pos'⟩)) (t : List Bool) :
    rrun r ⟨l ++ t, pos⟩ = (.ok v, ⟨rest ++ t, pos'⟩) := by
  obtain ⟨_, _, _, h3⟩ := hr.extend h
  exact h3 t

/-- C12: trailing bytes do not change the result of `Unmarshal`. -/
theorem C12_unmarshal {α : Type} (r : Rd α) (hr : r.Good) (b t : List Byte) (v : α) (h : unmarshal b r = .ok v) :
    unmarshal (b ++ t) r = .ok v := by
  unfold unmarshal at *
  rw [C11_reader_partial _ hr.safe] at *
  cases hq : RM.run (ExceptT.run r) ⟨bytesBits b, 0⟩ with
  | mk x st =>
    rw [hq] at h
    dsimp only at h
    subst h
    have := C12_flat r hr.strict _ _ _ _ v hq (bytesBits t)
    unfold rrun at this
    rw [bytesBits_append, this]

/-- C12, C13: every ztype decoder reports the errors it sees. -/
theorem C12_decoders_strict (n w : Nat) (b : Nat) :
    (readUnsignedBits n).Strict ∧ (0 < n → (readSignedBits n).Strict) ∧ (0 < w → (readUint w).Strict) ∧
    (0 < w → (readInt w).Strict) ∧ Rd.Strict readBool ∧ Rd.Strict readVaruint16 ∧ Rd.Strict readVaruint32 ∧
    Rd.Strict readVaruint64 ∧ Rd.Strict readVaruint ∧ Rd.Strict readVarsize ∧ Rd.Strict readVarint16 ∧
    Rd.Strict readVarint32 ∧ Rd.Strict readVarint64 ∧ Rd.Strict readVarint ∧ Rd.Strict readString ∧
    Rd.Strict readBytes ∧ Rd.Strict readExtern ∧ Rd.Strict readFloat16 ∧ Rd.Strict readFloat32 ∧
    Rd.Strict readFloat64 ∧ (alignR b).Strict :=
  ⟨.bits n, fun h => (readSignedBits_good h).1, fun h => (readUint_good h).1, fun h => (readInt_good h).1,
    readBool_good.1, (readVarU_good _ _).1, (readVarU_good _ _).1, (readVarU_good _ _).1, (readVarU_good _ _).1,
    readVarsize_good.1, (readVarS_good _ _).1, (readVarS_good _ _).1, (readVarS_good _ _).1, readVarint_good.1,
    readString_good.1, readBytes_good.1, readExtern_good.1, readFloat16_good.1, readFloat32_good.1, readFloat64_good.1,
    (alignR_good b).1⟩

example : unmarshal ([0x02#8, 0x68#8, 0x69#8] ++ [0xde#8, 0xad#8]) readString = .ok [0x68#8, 0x69#8] :=
  C12_unmarshal readString readString_good _ _ _ (by decide +kernel)

/-! ## C13 truncation -/

/-- C13: if a decoder consumed `pos' - pos` bits, it fails on every input that has fewer of them. -/
theorem C13_truncation {α : Type} (r : Rd α) (hr : r.Strict) (l rest l' : List Bool) (pos pos' : Nat) (v : α)
    (h : rrun r ⟨l, pos⟩ = (.ok v, ⟨rest, pos'⟩)) (hpre : l' <+: l) (hshort : l'.length < pos' - pos) :
    ∃ e st, rrun r ⟨l', pos⟩ = (.error e, st) := by
  cases hq : rrun r ⟨l', pos⟩ with
  | mk x st =>
    cases x with
    | error e => exact ⟨e, st, rfl⟩
    | ok v' =>
      exfalso
      obtain ⟨t, rfl⟩ := hpre
      obtain ⟨rest', pos''⟩ := st
      obtain ⟨used, h1, h2, h3⟩ := hr.extend hq
      have h4 := h3 t
      rw [h] at h4
      simp only [Prod.mk.injEq, RState.mk.injEq] at h4
      have := congrArg List.length h1
      rw [List.length_append] at this
      omega

/-- C13: exactly the consumed bits are enough. -/
theorem C13_exact {α : Type} (r : Rd α) (hr : r.Strict) (l rest : List Bool) (pos pos' : Nat) (v : α)
    (h : rrun r ⟨l, pos⟩ = (.ok v, ⟨rest, pos'⟩)) :
    ∃ used, l = used ++ rest ∧ used.length = pos' - pos := by
  obtain ⟨used, h1, h2, _⟩ := hr.extend h
  exact ⟨used, h1, by omega⟩

/-- C13 at byte level: if `Unmarshal` of `b` succeeds having read `k` bits, `Unmarshal` of a prefix with fewer than
`k` bits is an error. -/
theorem C13_unmarshal {α : Type} (r : Rd α) (hr : r.Good) (b b' : List Byte) (v : α) (st : RState)
    (h : rrun r ⟨bytesBits b, 0⟩ = (.ok v, st)) (hpre : b' <+: b) (hshort : 8 * b'.length < st.pos) :
    ∃ e, unmarshal b' r = .error e := by
  have hp : bytesBits b' <+: bytesBits b := by
    obtain ⟨t, rfl⟩ := hpre
    rw [bytesBits_append]; exact List.prefix_append _ _
  obtain ⟨e, st', he⟩ := C13_truncation r hr.strict (bytesBits b) st.rem (bytesBits b') 0 st.pos v h hp
    (by rw [bytesBits_length]; omega)
  refine ⟨e, ?_⟩
  unfold unmarshal
  rw [C11_reader_partial _ hr.safe]
  unfold rrun at he
  rw [he]

example : ∃ e, unmarshal [0x02#8, 0x68#8] readString = .error e :=
  C13_unmarshal readString readString_good [0x02#8, 0x68#8, 0x69#8] [0x02#8, 0x68#8] [0x68#8, 0x69#8] ⟨[], 24⟩
    (by decide +kernel) (by decide) (by decide)

/-! ## C14 sink faults -/

/-- C14: if writing to a sink and closing succeeds, no call to the sink failed, and the sink received exactly the bytes
`Marshal` produces.  `fault` is arbitrary: any pattern of failing calls. -/
theorem C14_sink (m : Wr Unit) (hm : m.Strict) (fault : Nat → Bool) (w : BW)
    (h : writeToSink fault m = (.ok (), w)) :
    marshal m = .ok w.out ∧ writeToSink noFault m = (.ok (), w) ∧ ∀ j, j < w.tries → fault j = false := by
  unfold writeToSink at h
  unfold marshal writeToSink
  cases hq : WM.runC fault (ExceptT.run m) BW.new with
  | mk x w1 =>
    rw [hq] at h
    cases x with
    | error e => simp at h
    | ok u =>
      dsimp only at h
      obtain ⟨h1, h2, h3⟩ := hm.runC_sub hq
      obtain ⟨h4, h5, h6⟩ := bwClose_sub w1 () w h
      rw [h1]
      dsimp only
      rw [h4]
      refine ⟨rfl, rfl, fun j hj => ?_⟩
      by_cases hj' : j < w1.tries
      · exact h3 j (Nat.zero_le _) hj'
      · exact h6 j (by omega) hj

/-- C14: a sink that refuses any of the calls which a fault-free run makes produces an error. -/
theorem C14_sink_error (m : Wr Unit) (hm : m.Strict) (fault : Nat → Bool) (w : BW)
    (h : writeToSink noFault m = (.ok (), w)) (j : Nat) (hj : j < w.tries) (hf : fault j = true) :
    ∃ e w', writeToSink fault m = (.error e, w') := by
  cases hq : writeToSink fault m with
  | mk x w' =>
    cases x with
    | error e => exact ⟨e, w', rfl⟩
    | ok u =>
      exfalso
      obtain ⟨_, h2, h3⟩ := C14_sink m hm fault w' hq
      rw [h] at h2
      obtain ⟨_, rfl⟩ := Prod.mk.inj h2
      rw [h3 j hj] at hf
      cases hf

/-- C14 on the flat stream: a strict encoder that reports success saw no failing operation. -/
theorem C14_flat {α : Type} (m : Wr α) (hm : m.Strict) (fault : Nat → Bool) (s s' : List Bool) (i i' : Nat) (v : α)
    (h : wrunF fault m s i = (.ok v, s', i')) :
    wrun m s = (.ok v, s') ∧ ∀ j, i ≤ j → j < i' → fault j = false :=
  ⟨(hm.no_fault fault h).2.2, (hm.no_fault fault h).2.1⟩

/-- C14: every ztype encoder is strict (and within the interface contract, so C10 and C11 apply as well). -/
theorem C14_encoders_good (v : BitVec 64) (n : Nat) (hn : n ≤ 248) (b : Nat) (hb : b ≤ 248) (s : List Byte)
    (bv : BytesV) (ev : ExternV) (v16 : BitVec 16) (v32 : BitVec 32) (w : Nat) (hw : w ≤ 64) (vw : BitVec w)
    (t : Bool) :
    (writeUnsignedBits v n).Good ∧ (writeSignedBits v n).Good ∧ (writeUint w vw).Good ∧ (writeInt w vw).Good ∧
    (writeBool t).Good ∧ (writeVaruint16 v16).Good ∧ (writeVaruint32 v32).Good ∧ (writeVaruint64 v).Good ∧
    (writeVaruint v).Good ∧ (writeVarsize v).Good ∧ (writeVarint16 v16).Good ∧ (writeVarint32 v32).Good ∧
    (writeVarint64 v).Good ∧ (writeVarint v).Good ∧ (writeString s).Good ∧ (writeBytes bv).Good ∧
    (writeExtern ev).Good ∧ (writeFloat16 v32).Good ∧ (writeFloat32 v32).Good ∧ (writeFloat64 v).Good ∧
    (alignW b).Good :=
  ⟨writeUnsignedBits_good v hn, writeSignedBits_good v n, writeUint_good hw vw, writeInt_good w vw, writeBool_good t,
    writeVarUint_good _ _, writeVarUint_good _ _, writeVarUint_good _ _, writeVarUint_good _ _, writeVarsize_good v,
    writeVarInt_good _ _, writeVarInt_good _ _, writeVarInt_good _ _, writeVarint_good v, writeString_good s,
    writeBytes_good bv, writeExtern_good ev, writeFloat16_good v32, writeFloat32_good v32, writeFloat64_good v,
    alignW_good hb⟩

example : (writeToSink (fun j => j == 1) (writeString [0x68#8, 0x69#8])).1 = .error .sink := by decide +kernel
example : (writeToSink noFault (writeString [0x68#8, 0x69#8])).2.tries = 2 := by decide +kernel

/-! ## C44 sequences of messages on one stream -/

/-- A message: how it is written, how it is read, and the value.  Messages of one sequence may have different types. -/
structure Msg where
  T : Type
  write : Wr Unit
  read : Rd T
  val : T

/-- The list of values of a list of messages. -/
def Vals : List Msg → Type
  | [] => Unit
  | m :: ms => m.T × Vals ms

def vals : (ms : List Msg) → Vals ms
  | [] => ()
  | m :: ms => (m.val, vals ms)

/-- Writing the messages one after another to the same stream. -/
def writeSeq : List Msg → Wr Unit
  | [] => pure ()
  | m :: ms => do m.write; writeSeq ms

/-- Reading them one after another from the same stream. -/
def readSeq : (ms : List Msg) → Rd (Vals ms)
  | [] => pure ()
  | m :: ms => do
    let v ← m.read
    let vs ← readSeq ms
    pure (v, vs)

/-- C44: the sequence of reads returns the sequence of values, from any starting position, without knowing lengths. -/
theorem C44_sequence (ms : List Msg) (h : ∀ m ∈ ms, RoundTrip m.write m.read m.val) :
    RoundTrip (writeSeq ms) (readSeq ms) (vals ms) := by
  induction ms with
  | nil => exact fun s => ⟨[], Writes.pure s, Reads.pure _ _⟩
  | cons m ms ih =>
    intro s
    obtain ⟨o1, h1, h2⟩ := h m (by simp) s
    obtain ⟨o2, h3, h4⟩ := ih (fun x hx => h x (List.mem_cons_of_mem _ hx)) (s ++ o1)
    refine ⟨o1 ++ o2, Writes.bind h1 h3, ?_⟩
    refine Reads.bind h2 ?_
    rw [List.length_append] at h4
    have := Reads.bind (k := fun vs => (pure (m.val, vs) : Rd (Vals (m :: ms)))) h4 (Reads.pure _ _)
    rwa [List.append_nil] at this

/-- C44: a later write never changes bits already written, even if it fails. -/
theorem C44_earlier_output_kept {α : Type} (w : Wr α) (s : List Bool) : s <+: (wrun w s).2 := WM.run_prefix _ _

/-- C44 through `Marshal` and `Unmarshal`. -/
theorem C44_marshal (ms : List Msg) (h : ∀ m ∈ ms, RoundTrip m.write m.read m.val)
    (hs : ∀ m ∈ ms, m.write.Safe ∧ m.read.Safe) :
    ∃ bytes, marshal (writeSeq ms) = .ok bytes ∧ ∀ t, unmarshal (bytes ++ t) (readSeq ms) = .ok (vals ms) := by
  refine C10_roundtrip _ _ _ ?_ ?_ (C44_sequence ms h)
  · clear h
    induction ms with
    | nil => exact .pure _
    | cons m ms ih => exact .bind (hs m (by simp)).1 fun _ => ih fun x hx => hs x (List.mem_cons_of_mem _ hx)
  · clear h
    induction ms with
    | nil => exact .pure _
    | cons m ms ih =>
      exact .bind (hs m (by simp)).2 fun _ => .bind (ih fun x hx => hs x (List.mem_cons_of_mem _ hx)) fun _ => .pure _

/-- Two messages of different types, the second one at an odd bit position. -/
example : ∀ m ∈ [(⟨Bool, writeBool true, readBool, true⟩ : Msg), ⟨BitVec 64, writeVarsize 300#64, readVarsize, 300#64⟩],
    RoundTrip m.write m.read m.val := by
  intro m hm
  simp only [List.mem_cons, List.not_mem_nil, or_false] at hm
  rcases hm with rfl | rfl
  · exact fun s => ⟨[true], C03_bool_roundtrip true s⟩
  · intro s
    obtain ⟨out, _, h⟩ := varsize_rt 300#64 (by decide) s
    exact ⟨out, h⟩

end Verif
