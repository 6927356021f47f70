import Verif.Object
import Verif.Discipline
import Verif.Props.Stream

/-!
# C20–C23, C42, C43 and the array cases of C13, C14
-/

namespace Verif

/-! ## C20, C21: round trip -/

theorem marshalW_writes {T : Type} {tr : Traits T} {cfg : ArrCfg} {es : List T} {s a b : List Bool}
    (h1 : Writes (Arr.header cfg es.length) s a)
    (hp : cfg.isPacked = true → es ≠ [] →
      ∃ c, WM.run (Arr.packedLoop tr cfg.hasCheck es (DCtx.initAll tr es)) (s ++ a) = ((.ok (), c), s ++ a ++ b))
    (hu : cfg.isPacked = false → es ≠ [] → Writes (Arr.plainLoop tr cfg.hasCheck es) (s ++ a) b)
    (hn : es = [] → b = []) : Writes (Arr.marshalW tr cfg es) s (a ++ b) := by
  unfold Writes wrun Arr.marshalW
  show WM.run (WM.bind _ _) s = _
  rw [WM.run_bind]
  unfold Arr.marshal
  rw [WM.run_bind]
  unfold Writes wrun at h1
  rw [h1]
  dsimp only
  cases es with
  | nil => rw [hn rfl]; simp [WM.run_pure]
  | cons e es =>
    rw [if_neg (c := (e :: es).isEmpty = true) (by simp)]
    cases hpk : cfg.isPacked with
    | true =>
      obtain ⟨c, hc⟩ := hp hpk (by simp)
      rw [if_pos rfl, WM.run_bind, hc]
      simp [WM.run_pure]
    | false =>
      have := hu hpk (by simp)
      unfold Writes wrun at this
      rw [if_neg (by decide), WM.run_bind, this]
      simp [WM.run_pure]

theorem arr_plain_rt {T : Type} {tr : Traits T} {ok : T → Prop} (hrt : tr.RT ok) (cfg : ArrCfg)
    (hu : cfg.isPacked = false) (es : List T) (hok : ∀ e ∈ es, ok e) (hlen : LenOk cfg es.length) :
    RoundTrip (Arr.marshalW tr cfg es) (Arr.unmarshal tr cfg) es := by
  intro s
  obtain ⟨a, _, _, a1, a2⟩ := header_rt hlen s
  obtain ⟨b, b1, b2⟩ := plain_rt hrt cfg.hasCheck es hok (s ++ a)
  refine ⟨a ++ b, marshalW_writes a1 (fun h => by rw [hu] at h; simp at h) (fun _ _ => b1) ?_, ?_⟩
  · rintro rfl
    exact b1.unique (Writes.pure _)
  · unfold Arr.unmarshal
    refine a2.bind ?_
    rw [hu, if_neg (by decide)]
    rwa [List.length_append] at b2

theorem arr_packed_rt {T : Type} {tr : Traits T} {ok : T → Prop} (hrt : tr.RT ok) (hrec : tr.Recover ok) (cfg : ArrCfg)
    (hu : cfg.isPacked = true) (es : List T) (hok : ∀ e ∈ es, ok e) (hlen : LenOk cfg es.length) :
    RoundTrip (Arr.marshalW tr cfg es) (Arr.unmarshal tr cfg) es := by
  intro s
  obtain ⟨a, _, _, a1, a2⟩ := header_rt hlen s
  obtain ⟨b, c, b1, b2⟩ := packed_rt hrt hrec cfg.hasCheck es hok _ _ (sync_init tr es) (s ++ a)
  refine ⟨a ++ b, marshalW_writes a1 (fun _ _ => ⟨c, b1⟩) (fun h => by rw [hu] at h; simp at h) ?_, ?_⟩
  · rintro rfl
    have : (s ++ a ++ b) = s ++ a := (congrArg Prod.snd b1).symm
    simpa using this
  · unfold Arr.unmarshal
    refine a2.bind ?_
    rw [hu, if_pos rfl]
    rwa [List.length_append] at b2

/-- C20: every traits of the package, every list of values in range, with or without element alignment, automatic or
fixed length, at every bit position. -/
theorem C20_unpacked_roundtrip (k : Elem) (hk : k.Wf) (cfg : ArrCfg) (hu : cfg.isPacked = false) (es : List k.T)
    (hok : ∀ e ∈ es, k.Ok e) (hlen : LenOk cfg es.length) :
    RoundTrip (Arr.marshalW k.traits cfg es) (Arr.unmarshal k.traits cfg) es :=
  arr_plain_rt (k.rt hk) cfg hu es hok hlen

/-- C20 also for user-defined traits whose elements round-trip. -/
theorem C20_any_traits {T : Type} (tr : Traits T) (ok : T → Prop) (hrt : tr.RT ok) (cfg : ArrCfg)
    (hu : cfg.isPacked = false) (es : List T) (hok : ∀ e ∈ es, ok e) (hlen : LenOk cfg es.length) :
    RoundTrip (Arr.marshalW tr cfg es) (Arr.unmarshal tr cfg) es := arr_plain_rt hrt cfg hu es hok hlen

/-- C20: arrays longer than a varsize can express are rejected. -/
theorem C20_too_long {T : Type} (tr : Traits T) (cfg : ArrCfg) (ha : cfg.isAuto = true) (es : List T)
    (h : maxVarsize < es.length) (h' : es.length < 2 ^ 63) (s : List Bool) :
    Rejects (Arr.marshalW tr cfg es) s .outOfBounds := by
  have e : (BitVec.ofNat 64 es.length).toNat = es.length := ofNat64_toNat (by omega)
  have hr := (C04_varsize (BitVec.ofNat 64 es.length) s).2 (by rw [e]; exact h)
  unfold Rejects wrun Arr.marshalW at *
  show WM.run (WM.bind _ _) s = _
  rw [WM.run_bind]
  unfold Arr.marshal
  rw [WM.run_bind]
  unfold Arr.header
  rw [ha, if_pos rfl, hr]
  rfl

example : RoundTrip (Arr.marshalW float32Traits ⟨0, true, false, false, true⟩ [0x3f800000#32, 0x7fc00000#32])
    (Arr.unmarshal float32Traits ⟨0, true, false, false, true⟩) [0x3f800000#32, 0x7fc00000#32] :=
  C20_unpacked_roundtrip .float32 trivial _ rfl _ (fun _ _ => trivial) (by unfold LenOk; decide)
/-- The bits of an array of two 3 bit fields with element alignment, started at bit 1. -/
example : wrun (Arr.marshalW (bitFieldTraits 8 3) ⟨0, true, false, false, true⟩ [5#8, 6#8]) [true] =
    (.ok (), [true] ++ natBits 8 2 ++ List.replicate 7 false ++ natBits 3 5 ++ List.replicate 5 false ++ natBits 3 6) := by
  decide +kernel

/-- C21 for integer and boolean elements. -/
theorem C21_packed_roundtrip_partial (k : Elem) (hk : k.Wf) (hi : k.IntLike) (cfg : ArrCfg) (hu : cfg.isPacked = true)
    (es : List k.T) (hok : ∀ e ∈ es, k.Ok e) (hlen : LenOk cfg es.length) :
    RoundTrip (Arr.marshalW k.traits cfg es) (Arr.unmarshal k.traits cfg) es :=
  arr_packed_rt (k.rt hk) (k.recover hk hi) cfg hu es hok hlen

/-- C21 for any traits with both round-trip laws. -/
theorem C21_any_traits {T : Type} (tr : Traits T) (ok : T → Prop) (hrt : tr.RT ok) (hrec : tr.Recover ok) (cfg : ArrCfg)
    (hu : cfg.isPacked = true) (es : List T) (hok : ∀ e ∈ es, ok e) (hlen : LenOk cfg es.length) :
    RoundTrip (Arr.marshalW tr cfg es) (Arr.unmarshal tr cfg) es := arr_packed_rt hrt hrec cfg hu es hok hlen

/-- C21 fails for float32: a packed array `[1.0, 2.0]` decodes to `[1.0, 0.0]` (the second element takes no bits). -/
theorem C21_float32_violates :
    let cfg : ArrCfg := ⟨0, true, true, false, false⟩
    let out := natBits 8 2 ++ true :: natBits 6 0 ++ natBits 32 0x3f800000
    wrun (Arr.marshalW float32Traits cfg [0x3f800000#32, 0x40000000#32]) [] = (.ok (), out) ∧
    rrun (Arr.unmarshal float32Traits cfg) ⟨out, 0⟩ = (.ok [0x3f800000#32, 0#32], ⟨[], 47⟩) := by decide +kernel

/-- C21 fails for strings. -/
theorem C21_string_violates :
    let cfg : ArrCfg := ⟨2, false, true, false, false⟩
    let out := true :: natBits 6 0 ++ natBits 8 1 ++ natBits 8 0x61
    wrun (Arr.marshalW stringTraits cfg [[0x61#8], [0x62#8]]) [] = (.ok (), out) ∧
    rrun (Arr.unmarshal stringTraits cfg) ⟨out, 0⟩ = (.ok [[0x61#8], []], ⟨[], 23⟩) := by decide +kernel

/-- C21 fails for byte and bit buffers: the second element comes back as a nil pointer. -/
theorem C21_buffers_violate :
    let cfg : ArrCfg := ⟨2, false, true, false, false⟩
    let b : BytesV := ⟨[0x61#8], 1#64⟩
    let x : ExternV := ⟨[0x61#8], 8#64⟩
    let wb := wrun (Arr.marshalW bytesTraits cfg [some b, some b]) []
    let wx := wrun (Arr.marshalW externTraits cfg [some x, some x]) []
    wb.1 = .ok () ∧ (rrun (Arr.unmarshal bytesTraits cfg) ⟨wb.2, 0⟩).1 = .ok [some b, none] ∧
    wx.1 = .ok () ∧ (rrun (Arr.unmarshal externTraits cfg) ⟨wx.2, 0⟩).1 = .ok [some x, none] := by decide +kernel

example : RoundTrip (Arr.marshalW varIntTraits ⟨0, true, true, false, false⟩ [minInt64, 5#64, -1#64])
    (Arr.unmarshal varIntTraits ⟨0, true, true, false, false⟩) [minInt64, 5#64, -1#64] :=
  C21_packed_roundtrip_partial .varint trivial trivial _ rfl _ (fun _ _ => trivial) (by unfold LenOk; decide)

/-! ## C22: sizes -/

theorem alignTo8 (n : Nat) : alignTo 8 (n : Int) = ((n + padBits n 8 : Nat) : Int) := by
  obtain ⟨k, h1, h2⟩ := C46_agrees 8 n (by omega)
  rw [countAlignBits_eq (by omega)] at h1
  have : padBits n 8 = k := by simpa using h1
  rw [this]
  simpa using h2

theorem plain_size {T : Type} {tr : Traits T} {ok : T → Prop} (hex : tr.Exact ok) (check : Bool) (es : List T)
    (hok : ∀ e ∈ es, ok e) (s : List Bool) : ∃ out, Writes (Arr.plainLoop tr check es) s out ∧
      Arr.sizeLoop tr check es s.length = ((s.length + out.length : Nat) : Int) := by
  induction es generalizing s with
  | nil => exact ⟨[], Writes.pure s, rfl⟩
  | cons e es ih =>
    obtain ⟨pad, q1, q2, p1, _⟩ := offsetAlign_rt check s
    obtain ⟨o1, a1, a2⟩ := hex e (hok e (by simp)) (s ++ pad)
    obtain ⟨o2, b1, b2⟩ := ih (fun x hx => hok x (by simp [hx])) (s ++ pad ++ o1)
    refine ⟨pad ++ (o1 ++ o2), p1.bind (a2.dropErr.bind b1), ?_⟩
    unfold Arr.sizeLoop
    dsimp only
    have hp : (if check = true then alignTo 8 (s.length : Int) else (s.length : Int)) =
        ((s.length + pad.length : Nat) : Int) := by
      cases check with
      | true => rw [if_pos rfl, alignTo8, q1 rfl]
      | false => rw [if_neg (by decide), q2 rfl]; rfl
    rw [hp]
    have : ((s.length + pad.length : Nat) : Int) + (tr.bitSizeOf e : Nat) = ((s ++ pad ++ o1).length : Nat) := by
      rw [← a1]; simp [Int.add_assoc]
    rw [this, b2]
    simp only [List.length_append]
    congr 1
    omega

theorem packed_size {T : Type} {tr : Traits T} {ok : T → Prop} (hex : tr.Exact ok) (check : Bool) (es : List T)
    (hok : ∀ e ∈ es, ok e) (cs cw : DCtx) (hinv : SizeInv cs cw) (s : List Bool) :
    ∃ out c, WM.run (Arr.packedLoop tr check es cw) s = ((.ok (), c), s ++ out) ∧
      (Arr.sizePackedLoop tr check es cs s.length).1 = ((s.length + out.length : Nat) : Int) := by
  induction es generalizing s cs cw with
  | nil => exact ⟨[], cw, by simp [Arr.packedLoop, WM.run_pure], rfl⟩
  | cons e es ih =>
    obtain ⟨pad, q1, q2, p1, _⟩ := offsetAlign_rt check s
    obtain ⟨o1, cw1, a1, a2, a3⟩ := size_step hex (hok e (by simp)) hinv (s ++ pad)
    obtain ⟨o2, c, b1, b2⟩ := ih (fun x hx => hok x (by simp [hx])) _ cw1 a3 (s ++ pad ++ o1)
    refine ⟨pad ++ (o1 ++ o2), c, ?_, ?_⟩
    · unfold Arr.packedLoop
      rw [WM.run_bind]
      unfold Writes wrun at p1
      rw [p1]
      dsimp only
      rw [WM.run_bind, a1]
      dsimp only
      rw [b1]
      simp
    · unfold Arr.sizePackedLoop
      dsimp only
      have hp : (if check = true then alignTo 8 (s.length : Int) else (s.length : Int)) =
          ((s.length + pad.length : Nat) : Int) := by
        cases check with
        | true => rw [if_pos rfl, alignTo8, q1 rfl]
        | false => rw [if_neg (by decide), q2 rfl]; rfl
      rw [hp]
      have : ((s.length + pad.length : Nat) : Int) + ((DCtx.bitSizeOf tr cs e).1 : Nat) =
          ((s ++ pad ++ o1).length : Nat) := by
        rw [← a2]; simp [Int.add_assoc]
      rw [this, b2]
      simp only [List.length_append]
      congr 1
      omega

/-- Is the size of the length field reported correctly? -/
def HeaderOk (cfg : ArrCfg) (n : Nat) : Prop := cfg.isAuto = true → LenAgree n

theorem header_size {cfg : ArrCfg} {n : Nat} (h : LenOk cfg n) (hh : HeaderOk cfg n) (s : List Bool) :
    ∃ out, Writes (Arr.header cfg n) s out ∧ Arr.headerSize cfg n = .ok out.length := by
  obtain ⟨out, h1, h2, h3, _⟩ := header_rt h s
  refine ⟨out, h3, ?_⟩
  unfold Arr.headerSize
  cases ha : cfg.isAuto with
  | false => rw [h2 ha]; rfl
  | true =>
    rw [if_pos rfl, ← h1 ha]
    unfold LenOk at h
    rw [ha, if_pos rfl] at h
    exact (lenAgree_iff h).mpr (hh ha)

/-- C22 for elements of varying size (variable-length integers, strings): the size is right when the size of the
length field is (see `C22_length_iff`), the element sizes are, and the two offset callbacks are set together. -/
theorem C22_varying_partial (k : Elem) (hk : k.Wf) (hc : k.traits.isConstant = false) (cfg : ArrCfg)
    (hu : cfg.isPacked = false) (hoff : cfg.hasSet = cfg.hasCheck) (es : List k.T) (hok : ∀ e ∈ es, k.SizeOk e)
    (hlen : LenOk cfg es.length) (hh : HeaderOk cfg es.length) (s : List Bool) :
    ∃ out, Writes (Arr.marshalW k.traits cfg es) s out ∧
      Arr.bitSize k.traits cfg es s.length = .ok (out.length : Int) := by
  obtain ⟨a, a1, a2⟩ := header_size hlen hh s
  obtain ⟨b, b1, b2⟩ := plain_size (k.exact hk) cfg.hasCheck es hok (s ++ a)
  refine ⟨a ++ b, marshalW_writes a1 (fun h => by rw [hu] at h; simp at h) (fun _ _ => b1) ?_, ?_⟩
  · rintro rfl; exact b1.unique (Writes.pure _)
  · unfold Arr.bitSize
    rw [a2]
    show (if _ then _ else _) = _
    rw [hc, Bool.false_and, if_neg (by decide), hoff]
    have e : (s.length : Int) + (a.length : Nat) = ((s ++ a).length : Nat) := by simp
    rw [e, b2]
    show Except.ok _ = _
    congr 1
    simp only [List.length_append]
    omega

/-- C22: with automatic length, the length field is counted wrongly for every length outside `LenAgree`: for elements
of varying size the reported size then differs from the written size (or is an error). -/
theorem C22_length_iff (k : Elem) (hk : k.Wf) (hc : k.traits.isConstant = false) (cfg : ArrCfg)
    (hu : cfg.isPacked = false) (ha : cfg.isAuto = true) (hoff : cfg.hasSet = false) (hoff' : cfg.hasCheck = false)
    (es : List k.T) (hok : ∀ e ∈ es, k.SizeOk e) (hlen : es.length ≤ maxVarsize) (s : List Bool) :
    ∃ out, Writes (Arr.marshalW k.traits cfg es) s out ∧
      (Arr.bitSize k.traits cfg es s.length = .ok (out.length : Int) ↔ LenAgree es.length) := by
  have hl : LenOk cfg es.length := by unfold LenOk; rw [ha, if_pos rfl]; exact hlen
  obtain ⟨a, h1, _, a1, _⟩ := header_rt hl s
  obtain ⟨b, b1, b2⟩ := plain_size (k.exact hk) cfg.hasCheck es hok (s ++ a)
  have hsum : ∀ (es : List k.T) (p : Int), Arr.sizeLoop k.traits false es p = p + ((es.map k.traits.bitSizeOf).sum : Nat) := by
    intro es
    induction es with
    | nil => intro p; simp [Arr.sizeLoop]
    | cons e es ih => intro p; unfold Arr.sizeLoop; dsimp only; rw [if_neg (by decide), ih]; simp [Int.add_assoc]
  refine ⟨a ++ b, marshalW_writes a1 (fun h => by rw [hu] at h; simp at h) (fun _ _ => b1) ?_, ?_⟩
  · rintro rfl; exact b1.unique (Writes.pure _)
  · rw [hoff', hsum] at b2
    rw [← lenAgree_iff hlen, h1 ha]
    unfold Arr.bitSize Arr.headerSize
    rw [ha, if_pos rfl]
    cases hs : signedBitSize (BitVec.ofNat 64 es.length) 4 with
    | error x => simp [bind, Except.bind]
    | ok h =>
      show (if _ then _ else _) = _ ↔ _
      rw [hc, Bool.false_and, if_neg (by decide), hoff, hsum]
      show Except.ok _ = _ ↔ _
      simp only [Except.ok.injEq, List.length_append] at b2 ⊢
      omega

/-- C22 for constant size elements without offset callbacks: the code aligns the first element and spaces the others
by whole bytes although nothing is aligned when writing, so the size is right exactly when the elements start on a byte
boundary and there is one element or the element size is a multiple of eight. -/
theorem C22_constant_iff (k : Elem) (hk : k.Wf) (hc : k.traits.isConstant = true) (cfg : ArrCfg)
    (hu : cfg.isPacked = false) (hoff : cfg.hasSet = false) (hoff' : cfg.hasCheck = false) (es : List k.T)
    (hne : es ≠ []) (hok : ∀ e ∈ es, k.SizeOk e)
    (hlen : LenOk cfg es.length) (hh : HeaderOk cfg es.length) (s : List Bool) :
    ∃ out, Writes (Arr.marshalW k.traits cfg es) s out ∧
      (Arr.bitSize k.traits cfg es s.length = .ok (out.length : Int) ↔
        s.length % 8 = 0 ∧ (es.length = 1 ∨ k.traits.bitSizeOf k.traits.zero % 8 = 0)) := by
  obtain ⟨a, a1, a2⟩ := header_size hlen hh s
  obtain ⟨b, b1, b2⟩ := plain_size (k.exact hk) cfg.hasCheck es hok (s ++ a)
  have hsum : ∀ (es : List k.T) (p : Int), Arr.sizeLoop k.traits false es p =
      p + ((es.length * k.traits.bitSizeOf k.traits.zero : Nat) : Int) := by
    intro es
    induction es with
    | nil => intro p; simp [Arr.sizeLoop]
    | cons e es ih =>
      intro p; unfold Arr.sizeLoop; dsimp only
      rw [if_neg (by decide), ih, k.constant hc e, List.length_cons, Nat.succ_mul]
      push_cast; ring
  have ha8 : a.length % 8 = 0 := by
    obtain ⟨out, g1, g2, g3, _⟩ := header_rt hlen s
    cases ha : cfg.isAuto with
    | false => have := g2 ha; subst this; rw [a1.unique g3]; rfl
    | true =>
      rw [a1.unique g3]
      have g1 := g1 ha
      unfold LenOk at hlen
      rw [ha, if_pos rfl] at hlen
      rw [usize5_eq hlen] at g1
      injection g1 with g1
      rw [← g1]
      (repeat' split) <;> rfl
  refine ⟨a ++ b, marshalW_writes a1 (fun h => by rw [hu] at h; simp at h) (fun _ _ => b1) ?_, ?_⟩
  · rintro rfl; exact b1.unique (Writes.pure _)
  · rw [hoff', hsum] at b2
    unfold Arr.bitSize
    rw [a2]
    show (if _ then _ else _) = _ ↔ _
    have hpos : 0 < es.length := List.length_pos_iff.mpr hne
    rw [hc, Bool.true_and, if_pos (by simpa using hpos), hoff, if_neg (by decide)]
    have e : (s.length : Int) + (a.length : Nat) = ((s ++ a).length : Nat) := by simp
    rw [e, alignTo8, alignTo8]
    show Except.ok _ = _ ↔ _
    generalize k.traits.bitSizeOf k.traits.zero = z at *
    obtain ⟨m, hm⟩ : ∃ m, es.length = m + 1 := ⟨es.length - 1, by omega⟩
    rw [hm] at b2 ⊢
    have hb : b.length = (m + 1) * z := by simp only [List.length_append] at b2; omega
    simp only [Except.ok.injEq, List.length_append, hb]
    have hpad1 : padBits (s.length + a.length) 8 = padBits s.length 8 := by
      unfold padBits; congr 2; omega
    rw [hpad1]
    have q1 : padBits s.length 8 = 0 ↔ s.length % 8 = 0 := by unfold padBits; omega
    have q2 : padBits z 8 = 0 ↔ z % 8 = 0 := by unfold padBits; omega
    rw [← q1, ← q2]
    generalize padBits s.length 8 = u
    generalize padBits z 8 = v
    have : (((m + 1 : Nat) : Int) - 1) = (m : Int) := by push_cast; ring
    rw [this]
    push_cast
    constructor
    · intro h
      have h2 : (u : Int) + m * v = 0 := by linarith [h, (by ring : (m : Int) * ((z : Int) + v) = m * z + m * v)]
      have h3 : 0 ≤ (m : Int) * v := by positivity
      have hu0 : (u : Int) = 0 := by omega
      have hv0 : (m : Int) * v = 0 := by omega
      rcases Int.mul_eq_zero.mp hv0 with h | h
      · exact ⟨by omega, Or.inl (by omega)⟩
      · exact ⟨by omega, Or.inr (by omega)⟩
    · rintro ⟨h1, h2 | h2⟩
      · have : m = 0 := by omega
        subst this; subst h1; push_cast; ring
      · subst h1; subst h2; push_cast; ring

/-- C22 fails: three 3 bit fields occupy 9 bits, the reported size is 19. -/
theorem C22_constant_violates :
    let cfg : ArrCfg := ⟨3, false, false, false, false⟩
    wrun (Arr.marshalW (bitFieldTraits 8 3) cfg [1#8, 2#8, 3#8]) [] = (.ok (), natBits 3 1 ++ natBits 3 2 ++ natBits 3 3) ∧
    Arr.bitSize (bitFieldTraits 8 3) cfg [1#8, 2#8, 3#8] 0 = .ok 19 := by decide +kernel

/-- C22 fails for aligned elements: the same array with both offset callbacks occupies 19 bits, the reported size is
9. -/
theorem C22_aligned_violates :
    let cfg : ArrCfg := ⟨3, false, false, true, true⟩
    (wrun (Arr.marshalW (bitFieldTraits 8 3) cfg [1#8, 2#8, 3#8]) []).2.length = 19 ∧
    Arr.bitSize (bitFieldTraits 8 3) cfg [1#8, 2#8, 3#8] 0 = .ok 9 := by decide +kernel

/-- C22 fails for byte buffers: the length in front of each element is not counted. -/
theorem C22_bytes_violates :
    let cfg : ArrCfg := ⟨1, false, false, false, false⟩
    let b : Option BytesV := some ⟨[0x61#8], 1#64⟩
    (wrun (Arr.marshalW bytesTraits cfg [b]) []).2.length = 16 ∧ Arr.bitSize bytesTraits cfg [b] 0 = .ok 8 := by
  decide +kernel

/-- C22 fails for large variable-length elements: 2^14 as varuint16 takes two bytes, three are reported; 2^63 as
varuint takes nine bytes, none are reported. -/
theorem C22_varuint_violates :
    let cfg : ArrCfg := ⟨1, false, false, false, false⟩
    (wrun (Arr.marshalW varUInt16Traits cfg [0x4000#16]) []).2.length = 16 ∧
    Arr.bitSize varUInt16Traits cfg [0x4000#16] 0 = .ok 24 ∧
    (wrun (Arr.marshalW varUIntTraits cfg [0x8000000000000000#64]) []).2.length = 72 ∧
    Arr.bitSize varUIntTraits cfg [0x8000000000000000#64] 0 = .ok 0 := by decide +kernel

/-- C22 for packed arrays: computed on a context that has been initialised with the elements and not used yet. -/
theorem C22_packed_partial (k : Elem) (hk : k.Wf) (cfg : ArrCfg) (hu : cfg.isPacked = true)
    (hoff : cfg.hasSet = cfg.hasCheck) (es : List k.T) (hok : ∀ e ∈ es, k.SizeOk e)
    (hlen : LenOk cfg es.length) (hh : HeaderOk cfg es.length) (s : List Bool) :
    ∃ out, Writes (Arr.marshalW k.traits cfg es) s out ∧
      (Arr.bitSizePacked k.traits cfg es (some (DCtx.initAll k.traits es)) s.length).1 = .ok (out.length : Int) := by
  obtain ⟨a, a1, a2⟩ := header_size hlen hh s
  obtain ⟨b, c, b1, b2⟩ := packed_size (k.exact hk) cfg.hasCheck es hok _ _ (sizeInv_init k.traits es) (s ++ a)
  have hnil : es = [] → b = [] := by
    rintro rfl
    have : (s ++ a ++ b) = s ++ a := (congrArg Prod.snd b1).symm
    simpa using this
  refine ⟨a ++ b, marshalW_writes a1 (fun _ _ => ⟨c, b1⟩) (fun h => by rw [hu] at h; simp at h) hnil, ?_⟩
  unfold Arr.bitSizePacked
  rw [a2]
  dsimp only
  cases es with
  | nil => rw [hnil rfl]; simp
  | cons e es =>
    rw [if_neg (by simp), hoff]
    dsimp only
    have e' : (s.length : Int) + (a.length : Nat) = ((s ++ a).length : Nat) := by simp
    rw [e', b2]
    congr 1
    simp only [List.length_append]
    omega

/-- C22 fails for packed arrays as used: before the first `MarshalZserio` the context is missing (a panic), afterwards
it is used up and the descriptor is not counted. -/
theorem C22_packed_violates :
    let cfg : ArrCfg := ⟨1, false, true, false, false⟩
    let es := [5#8]
    let tr := bitFieldTraits 8 8
    (Arr.bitSizePacked tr cfg es none 0).1 = .error (.panic "nil pointer dereference") ∧
    (WM.run (Arr.marshal tr cfg es none) []).2.length = 9 ∧
    (Arr.bitSizePacked tr cfg es (WM.run (Arr.marshal tr cfg es none) []).1.2 0).1 = .ok 8 := by decide +kernel

example : LenAgree 10 ∧ ¬ LenAgree 100 ∧ LenAgree 1000 := by decide

/-! ## C23: element write errors -/

/-- A writer that never panics. -/
def NoPanic (w : Wr Unit) : Prop := ∀ s, ∀ e, (wrun w s).1 = .error e → e.isPanic = false

/-- C23 is violated by every unwritable element: whatever the elements are, an unpacked array without element alignment
reports success as long as its length can be written and no element panics. -/
theorem C23_never_reports {T : Type} (tr : Traits T) (cfg : ArrCfg) (hu : cfg.isPacked = false) (es : List T)
    (hp : ∀ e ∈ es, NoPanic (tr.write e)) (hlen : LenOk cfg es.length) (s : List Bool) :
    (wrun (Arr.marshalW tr cfg es) s).1 = .ok () := by
  have hloop : ∀ (es : List T), (∀ e ∈ es, NoPanic (tr.write e)) → ∀ s, ∃ out,
      Writes (Arr.plainLoop tr cfg.hasCheck es) s out := by
    intro es
    induction es with
    | nil => exact fun _ s => ⟨[], Writes.pure s⟩
    | cons e es ih =>
      intro hp s
      obtain ⟨pad, _, _, p1, _⟩ := offsetAlign_rt cfg.hasCheck s
      have hd : ∃ o, Writes (Wr.dropErr (tr.write e)) (s ++ pad) o := by
        obtain ⟨o, ho⟩ := WM.run_prefix (ExceptT.run (tr.write e)) (s ++ pad)
        refine ⟨o, ?_⟩
        unfold Writes
        rw [wrun_dropErr]
        have hnp := hp e (by simp) (s ++ pad)
        have ho' : s ++ pad ++ o = (wrun (tr.write e) (s ++ pad)).2 := ho
        rw [ho']
        cases hq : wrun (tr.write e) (s ++ pad) with
        | mk r s' =>
          cases r with
          | ok u => rfl
          | error x => rw [hq] at hnp; dsimp only; rw [hnp x rfl]; rfl
      obtain ⟨o1, a1⟩ := hd
      obtain ⟨o2, b1⟩ := ih (fun x hx => hp x (by simp [hx])) (s ++ pad ++ o1)
      exact ⟨_, p1.bind (a1.bind b1)⟩
  obtain ⟨a, _, _, a1, _⟩ := header_rt hlen s
  obtain ⟨b, b1⟩ := hloop es hp (s ++ a)
  have := marshalW_writes (tr := tr) a1 (fun h => by rw [hu] at h; simp at h) (fun _ _ => b1)
    (by rintro rfl; exact b1.unique (Writes.pure _))
  unfold Writes at this
  rw [this]

/-- C23 fails, unpacked: 40000 does not fit varuint16 and is left out, and the decoder takes the following value (9,
written by someone else) as the second element. -/
theorem C23_violates :
    let cfg : ArrCfg := ⟨2, false, false, false, false⟩
    (wrun (varUInt16Traits.write 40000#16) []).1 = .error .outOfBounds ∧
    wrun (do Arr.marshalW varUInt16Traits cfg [40000#16, 7#16]; writeUint 8 9#8) [] = (.ok (), natBits 8 7 ++ natBits 8 9) ∧
    rrun (Arr.unmarshal varUInt16Traits cfg) ⟨natBits 8 7 ++ natBits 8 9, 0⟩ = (.ok [7#16, 9#16], ⟨[], 16⟩) := by
  decide +kernel

/-- C23 fails, packed: the first element cannot be written, the array still reports success. -/
theorem C23_packed_violates :
    let cfg : ArrCfg := ⟨2, false, true, false, false⟩
    wrun (Arr.marshalW varUInt16Traits cfg [40000#16, 7#16]) [] = (.ok (), false :: natBits 8 7) := by decide +kernel

/-- Bit field traits do not even detect values that do not fit: they are cut off silently. -/
theorem C23_bitfield_truncates (w n : Nat) (e : BitVec w) (s : List Bool) :
    Writes ((bitFieldTraits w n).write e) s (natBits n ((e.setWidth 64).toNat % 2 ^ n)) := by
  show wrun (Wr.bits _ _) s = _
  rw [wrun_bits, natBits_mod n _ (Nat.le_refl n)]

/-- C23, what does hold: a length that cannot be written is reported (`C20_too_long`), a panic of an element is not
swallowed, and if every element can be written the array reports success. -/
theorem C23_partial {T : Type} (tr : Traits T) (check : Bool) (e : T) (es : List T) (m : String)
    (hpanic : ∀ s, (wrun (tr.write e) s).1 = .error (.panic m)) (s : List Bool) :
    (wrun (Arr.plainLoop tr check (e :: es)) s).1 = .error (.panic m) := by
  obtain ⟨pad, _, _, p1, _⟩ := offsetAlign_rt check s
  unfold Arr.plainLoop
  rw [wrun_bind, p1]
  dsimp only
  rw [wrun_bind, wrun_dropErr]
  have := hpanic (s ++ pad)
  cases hq : wrun (tr.write e) (s ++ pad) with
  | mk r s' =>
    rw [hq] at this
    dsimp only at this
    subst this
    rfl

example : NoPanic (varUInt16Traits.write 40000#16) := by
  intro s e h
  have := (C04_varuint16 40000#16 s).2 (by decide)
  unfold Rejects at this
  rw [show varUInt16Traits.write 40000#16 = writeVaruint16 40000#16 from rfl, this] at h
  simp only [Except.error.injEq] at h
  rw [← h]; rfl

/-! ## C13 and C14 for arrays -/

theorem offsetAlignR_strict (c : Bool) : (offsetAlignR c).Strict := by
  unfold offsetAlignR
  exact .ite (.bind (alignR_good 8).1 fun _ => .pure ()) (.pure ())

theorem plainRead_strict {T : Type} {tr : Traits T} (h : tr.read.Strict) (c : Bool) (n : Nat) :
    (Arr.plainRead tr c n).Strict := by
  induction n with
  | zero => exact .pure []
  | succ n ih => exact .bind (offsetAlignR_strict c) fun _ => .bind h fun _ => .bind ih fun _ => .pure _

/-- C13 for unpacked arrays: they only decode when everything they read was there (`C13_truncation` applies). -/
theorem C13_unpacked_arrays {T : Type} (tr : Traits T) (h : tr.read.Strict) (cfg : ArrCfg) (hu : cfg.isPacked = false) :
    (Arr.unmarshal tr cfg).Strict := by
  unfold Arr.unmarshal
  refine .bind (.ite (.bind readVarsize_good.1 fun _ => .pure _) (.pure _)) fun n => ?_
  rw [hu, if_neg (by decide)]
  exact plainRead_strict h _ n

/-- C13 fails for packed arrays: `DeltaContext.Read` drops the error of reading its descriptor.  A packed array of three
booleans written at a position with four bits left in the byte decodes to `[false, false, false]` from the first four
bits alone although the whole takes twelve. -/
theorem C13_packed_violates :
    let cfg : ArrCfg := ⟨3, false, true, false, false⟩
    let full := true :: natBits 6 1 ++ [true] ++ natBits 2 3 ++ natBits 2 1
    rrun (Arr.unmarshal boolTraits cfg) ⟨full, 4⟩ = (.ok [true, false, true], ⟨[], 16⟩) ∧
    rrun (Arr.unmarshal boolTraits cfg) ⟨full.take 4, 4⟩ = (.ok [false, false, false], ⟨[false, false], 6⟩) := by
  decide +kernel

/-- C14 fails for arrays: when the sink refuses the second operation (the first element), the array still reports
success and the element is missing. -/
theorem C14_array_violates :
    let cfg : ArrCfg := ⟨2, false, false, false, false⟩
    wrunF (fun i => i == 0) (Arr.marshalW (bitFieldTraits 8 8) cfg [1#8, 2#8]) [] 0 = (.ok (), natBits 8 2, 2) := by
  decide +kernel

/-! ## C42: bit field traits from the cache -/

/-- The tables of /repo/ztype/array_traits.go:105-108: for each width the Go type of the stored traits (identified by a
number), or nil. -/
abbrev TraitsTab := List (Option Nat)

/-- The initial table. -/
def TraitsTab.init : TraitsTab := List.replicate 64 none

/-- /repo/ztype/array_traits.go:110-128 `GetSignedBitFieldArrayTraits[T]`, `GetBitFieldArrayTraits[T]`: the type and
width of the returned traits, or a panic, and the table afterwards. -/
def TraitsTab.get (tab : TraitsTab) (ty n : Nat) : Except Err (Nat × Nat) × TraitsTab :=
  match tab[n]? with
  | none => (.error (.panic "index out of range"), tab)
  | some none => (.ok (ty, n), tab.set n (some ty))
  | some (some ty') =>
    if ty' = ty then (.ok (ty, n), tab) else (.error (.panic "interface conversion"), tab)

/-- The table after a history of calls (with panics recovered by the caller). -/
def TraitsTab.after (h : List (Nat × Nat)) : TraitsTab := h.foldl (fun tab c => (tab.get c.1 c.2).2) TraitsTab.init

theorem TraitsTab.get_length (tab : TraitsTab) (ty n : Nat) : (tab.get ty n).2.length = tab.length := by
  unfold TraitsTab.get
  (repeat' split) <;> simp

theorem TraitsTab.get_other (tab : TraitsTab) (ty n m : Nat) (h : m ≠ n) : (tab.get ty n).2[m]? = tab[m]? := by
  unfold TraitsTab.get
  (repeat' split) <;> simp [Ne.symm h]

theorem TraitsTab.get_same (tab : TraitsTab) (ty n : Nat) (h : n < tab.length) :
    (tab.get ty n).2[n]? = some (some ((tab[n]?.join).getD ty)) := by
  unfold TraitsTab.get
  obtain ⟨x, hx⟩ : ∃ x, tab[n]? = some x := ⟨tab[n], List.getElem?_eq_getElem h⟩
  rw [hx]
  cases x with
  | none => simp [h]
  | some t => dsimp only; split <;> simp [hx]

theorem TraitsTab.after_spec (h : List (Nat × Nat)) (n : Nat) (hn : n < 64) :
    (TraitsTab.after h)[n]? = some ((h.find? fun c => c.2 == n).map Prod.fst) := by
  have gen : ∀ (h : List (Nat × Nat)) (tab : TraitsTab), tab.length = 64 → ∀ x, tab[n]? = some x →
      (h.foldl (fun tab c => (tab.get c.1 c.2).2) tab)[n]? = some (x.or ((h.find? fun c => c.2 == n).map Prod.fst)) := by
    intro h
    induction h with
    | nil => intro tab _ x hx; simp [hx]
    | cons c h ih =>
      intro tab hl x hx
      rw [List.foldl_cons]
      by_cases hc : c.2 = n
      · have hs := TraitsTab.get_same tab c.1 c.2 (by omega)
        rw [hc] at hs
        rw [ih _ (by rw [TraitsTab.get_length]; exact hl) (some ((tab[n]?.join).getD c.1)) (by rw [hc]; exact hs)]
        rw [hx]
        simp only [List.find?_cons, hc, beq_self_eq_true]
        cases x <;> simp
      · rw [ih _ (by rw [TraitsTab.get_length]; exact hl) x (by rw [TraitsTab.get_other _ _ _ _ (Ne.symm hc)]; exact hx)]
        have : (c.2 == n) = false := by simpa using hc
        simp [this]
  have := gen h TraitsTab.init rfl none (by unfold TraitsTab.init; rw [List.getElem?_replicate, if_pos hn])
  simpa [TraitsTab.after] using this

/-- C42, exactly when it works: after any history the call returns traits of the requested type and width if and only
if the width is below 64 and the first earlier call with this width (if any) used the same Go type. -/
theorem C42_get_iff (h : List (Nat × Nat)) (ty n : Nat) :
    ((TraitsTab.after h).get ty n).1 = .ok (ty, n) ↔
      n < 64 ∧ ∀ ty', (h.find? fun c => c.2 == n).map Prod.fst = some ty' → ty' = ty := by
  have hlen : (TraitsTab.after h).length = 64 := by
    unfold TraitsTab.after
    have : ∀ (h : List (Nat × Nat)) (tab : TraitsTab), (h.foldl (fun tab c => (tab.get c.1 c.2).2) tab).length = tab.length := by
      intro h
      induction h with
      | nil => intro tab; rfl
      | cons c h ih => intro tab; rw [List.foldl_cons, ih, TraitsTab.get_length]
    rw [this]; rfl
  by_cases hn : n < 64
  · have hs := TraitsTab.after_spec h n hn
    unfold TraitsTab.get
    rw [hs]
    cases hf : (h.find? fun c => c.2 == n).map Prod.fst with
    | none => simp [hn]
    | some t =>
      dsimp only
      by_cases ht : t = ty
      · simp [ht, hn]
      · simp [ht]
  · unfold TraitsTab.get
    rw [List.getElem?_eq_none (by omega)]
    simp [hn]

/-- C42 with the missing part named: histories in which every width is always asked for with one Go type, width below
64. -/
theorem C42_get_partial (h : List (Nat × Nat)) (ty n : Nat) (hn : n < 64) (hty : ∀ c ∈ h, c.2 = n → c.1 = ty) :
    ((TraitsTab.after h).get ty n).1 = .ok (ty, n) := by
  rw [C42_get_iff]
  refine ⟨hn, ?_⟩
  intro ty' hf
  obtain ⟨c, hc, rfl⟩ := Option.map_eq_some_iff.mp hf
  exact hty c (List.mem_of_find?_eq_some hc) (by simpa using List.find?_some hc)

/-- C42 fails for width 64, whatever happened before. -/
theorem C42_width64_violates (h : List (Nat × Nat)) (ty : Nat) :
    ((TraitsTab.after h).get ty 64).1 ≠ .ok (ty, 64) := by
  rw [Ne, C42_get_iff]; omega

/-- C42 fails when the same width is used for two Go types (5 bits in a uint8, then in a uint16). -/
theorem C42_two_types_violates :
    ((TraitsTab.after [(8, 5)]).get 16 5).1 = .error (.panic "interface conversion") := by decide +kernel

example : ((TraitsTab.after [(8, 5), (16, 11), (8, 5)]).get 16 11).1 = .ok (16, 11) :=
  C42_get_partial _ _ _ (by decide) (by decide)

/-! ## C43: Clone -/

/-- Memory: the backing arrays of slices. -/
abbrev Heap (T : Type) := Nat → List T

/-- An `Array` value in memory: /repo/ztype/array.go:11-33.  The slice covers its whole backing array. -/
structure ArrObj where
  raw : Nat
  cfg : ArrCfg
  ctx : Option DCtx

/-- /repo/ztype/array.go:101-113 `Clone`: the slice header is copied, not the elements.  (The packing context pointer is
shared as well; it has no influence on what is written, `marshal_ctx`.) -/
def ArrObj.clone (a : ArrObj) : ArrObj := { a with raw := a.raw }

/-- What the array serialises to. -/
def ArrObj.bits {T : Type} (tr : Traits T) (m : Heap T) (a : ArrObj) : Except Err Unit × List Bool :=
  wrun (Arr.marshalW tr a.cfg (m a.raw)) []

/-- `a.RawArray[i] = v`. -/
def ArrObj.setElem {T : Type} (m : Heap T) (a : ArrObj) (i : Nat) (v : T) : Heap T :=
  fun r => if r = a.raw then (m r).set i v else m r

/-- C43 fails: an update through the clone is visible in the original. -/
theorem C43_clone_violates : ∃ (m : Heap (BitVec 8)) (a : ArrObj),
    ArrObj.bits (bitFieldTraits 8 8) (ArrObj.setElem m a.clone 0 9#8) a ≠ ArrObj.bits (bitFieldTraits 8 8) m a :=
  ⟨fun _ => [1#8], ⟨0, ⟨1, false, false, false, false⟩, none⟩, by decide +kernel⟩

/-- C43, what holds: after the clone has been given a slice of its own, its element updates leave the original alone. -/
theorem C43_clone_partial {T : Type} (tr : Traits T) (m : Heap T) (a : ArrObj) (fresh : Nat) (hf : fresh ≠ a.raw)
    (us : List (Nat × T)) :
    ArrObj.bits tr (us.foldl (fun m u => ArrObj.setElem m { a.clone with raw := fresh } u.1 u.2) m) a =
      ArrObj.bits tr m a := by
  induction us generalizing m with
  | nil => rfl
  | cons u us ih =>
    rw [List.foldl_cons, ih]
    unfold ArrObj.bits ArrObj.setElem
    dsimp only
    rw [if_neg (Ne.symm hf)]

end Verif
