import Verif.Props.Object

/-!
# Bit sizes of generated types: C26
-/

namespace Verif

/-- Writing succeeds at every position and writes as many bits as the size function says for that position. -/
def SizeIs (w : Wr Unit) (size : Int → Except Err Int) : Prop :=
  ∀ s, ∃ out, Writes w s out ∧ size (s.length : Int) = .ok (out.length : Int)

theorem Writes.not_rejects {w : Wr Unit} {s out : List Bool} {e : Err} (h : Writes w s out) (h' : Rejects w s e) : False := by
  unfold Writes Rejects at *
  rw [h] at h'
  injection h' with h'
  cases h'

namespace Elem

/-- The scalars whose size is reported correctly: all values in range, except byte and bit buffers. -/
def Sized : (k : Elem) → k.T → Prop
  | bytes => fun _ => False
  | extern => fun _ => False
  | k => k.Ok

theorem sized_ok (k : Elem) (y : k.T) (h : k.Sized y) : k.Ok y := by cases k <;> first | exact h | exact h.elim

theorem scalar_size (k : Elem) (hk : k.Wf) (y : k.T) (hy : k.Sized y) (s : List Bool) :
    ∃ out, Writes (k.writeS y) s out ∧ k.sizeS y = .ok out.length := by
  obtain ⟨out, h, _⟩ := k.scalar_rt hk y (k.sized_ok y hy) s
  have vu : ∀ (v : BitVec 64) (m : Nat), 2 ≤ m → m ≤ 9 → Writes (writeVarUint v m) s out →
      unsignedBitSize v m = .ok out.length := by
    intro v m h2 h9 h
    cases hu : unsignedBitSize v m with
    | ok n =>
      obtain ⟨out', hl, hw⟩ := (C06_unsigned_size v m h2 h9 s).1 n hu
      rw [h.unique hw, hl]
    | error e => exact (h.not_rejects ((C06_unsigned_size v m h2 h9 s).2 e hu)).elim
  have vs : ∀ (v : BitVec 64) (m : Nat), 2 ≤ m → m ≤ 9 → Writes (writeVarInt v m) s out →
      signedBitSize v m = .ok out.length := by
    intro v m h2 h9 h
    cases hu : signedBitSize v m with
    | ok n =>
      obtain ⟨out', hl, hw⟩ := (C06_signed_size v m h2 h9 s).1 n hu
      rw [h.unique hw, hl]
    | error e => exact (h.not_rejects ((C06_signed_size v m h2 h9 s).2 e hu)).elim
  refine ⟨out, h, ?_⟩
  cases k with
  | varint =>
    obtain ⟨out', h1, h2⟩ := C06_varint_size y s
    rw [h.unique h2]; exact h1
  | varint16 => exact vs _ 2 (by decide) (by decide) h
  | varint32 => exact vs _ 4 (by decide) (by decide) h
  | varint64 => exact vs _ 8 (by decide) (by decide) h
  | varuint => exact vu _ 9 (by decide) (by decide) h
  | varuint16 => exact vu _ 2 (by decide) (by decide) h
  | varuint32 => exact vu _ 4 (by decide) (by decide) h
  | varuint64 => exact vu _ 8 (by decide) (by decide) h
  | varsize =>
    obtain ⟨out', h1, h2, _⟩ := varsize_rt y hy s
    rw [h.unique h2]; exact h1
  | bits w n =>
    have e := setWidth64_toNat hk.2.2 (y : BitVec w)
    obtain ⟨out', hl, h2, _⟩ := C01_unsigned_bits_roundtrip (BitVec.setWidth 64 (y : BitVec w)) n
      (by have := hk.2.1; have := hk.2.2; omega) (by rw [e]; exact hy) s
    rw [h.unique h2, hl]; rfl
  | sbits w n =>
    have e := BitVec.toInt_signExtend_of_le (x := (y : BitVec w)) hk.2.2
    obtain ⟨out', hl, h2, _⟩ := C02_signed_bits_roundtrip (BitVec.signExtend 64 (y : BitVec w)) n hk.1
      (by have := hk.2.1; have := hk.2.2; omega) (by rw [e]; exact hy.1) (by rw [e]; exact hy.2) s
    rw [h.unique h2, hl]; rfl
  | bool =>
    obtain ⟨out', hl, h2, _⟩ := bool_rtl y s
    rw [h.unique h2, hl]; rfl
  | string =>
    obtain ⟨out', h1, h2, _⟩ := C15_string y hy s
    rw [h.unique h2]; exact h1
  | bytes => exact hy.elim
  | extern => exact hy.elim
  | float16 => rw [h.unique (C16_float16_total y s), natBits_length]; rfl
  | float32 => rw [h.unique (C16_float32 y s).1, natBits_length]; rfl
  | float64 => rw [h.unique (C16_float64 y s).1, natBits_length]; rfl

/-- Array elements whose size is reported correctly. -/
def SizeOkV (k : Elem) (v : Val) : Prop := ∃ y, v = k.inj y ∧ k.SizeOk y

theorem vt_exact (k : Elem) (hk : k.Wf) : k.vt.Exact k.SizeOkV := by
  rintro _ ⟨y, rfl, hy⟩ s
  obtain ⟨out, h1, h2⟩ := k.exact hk y hy s
  refine ⟨out, ?_, ?_⟩
  · show out.length = k.traits.bitSizeOf (k.val (k.inj y))
    rw [k.val_inj]; exact h1
  · show Writes (k.traits.write (k.val (k.inj y))) s out
    rw [k.val_inj]; exact h2

end Elem

/-- Arrays of elements of varying size without offset callbacks. -/
theorem arr_varying_size {T : Type} {tr : Traits T} {ok : T → Prop} (hex : tr.Exact ok) (hc : tr.isConstant = false)
    (cfg : ArrCfg) (hu : cfg.isPacked = false) (hset : cfg.hasSet = cfg.hasCheck) (es : List T) (hok : ∀ e ∈ es, ok e)
    (hlen : LenOk cfg es.length) (hh : HeaderOk cfg es.length) :
    SizeIs (Arr.marshalW tr cfg es) (Arr.bitSize tr cfg es) := by
  intro s
  obtain ⟨a, a1, a2⟩ := header_size hlen hh s
  obtain ⟨b, b1, b2⟩ := plain_size hex cfg.hasCheck es hok (s ++ a)
  refine ⟨a ++ b, marshalW_writes a1 (fun h => by rw [hu] at h; simp at h) (fun _ _ => b1) ?_, ?_⟩
  · rintro rfl; exact b1.unique (Writes.pure _)
  · unfold Arr.bitSize
    rw [a2]
    show (if _ then _ else _) = _
    rw [hc, Bool.false_and, if_neg (by decide), hset]
    have e : (s.length : Int) + (a.length : Nat) = ((s ++ a).length : Nat) := by simp
    rw [e, b2]
    show Except.ok _ = _
    congr 1
    simp only [List.length_append]
    omega

/-- The empty array. -/
theorem arr_empty_size {T : Type} (tr : Traits T) (cfg : ArrCfg) (hlen : LenOk cfg 0) :
    SizeIs (Arr.marshalW tr cfg []) (Arr.bitSize tr cfg []) := by
  intro s
  obtain ⟨a, a1, a2⟩ := header_size hlen (fun _ => by unfold LenAgree; decide) s
  refine ⟨a ++ [], marshalW_writes a1 (fun _ h => absurd rfl h) (fun _ h => absurd rfl h) (fun _ => rfl), ?_⟩
  unfold Arr.bitSize
  rw [show ([] : List T).length = 0 from rfl, a2]
  show (if _ then _ else _) = _
  rw [show decide (0 > 0) = false from rfl, Bool.and_false, if_neg (by decide)]
  show Except.ok _ = _
  congr 1
  simp [Arr.sizeLoop]

theorem objArr_sizeLoop {m : Meth} (vs : List Val) (h : ∀ v ∈ vs, SizeIs (m.marshal v) (m.bitSize v)) (s : List Bool) :
    ∃ out, Writes (ObjArr.plainLoop m false vs) s out ∧
      ObjArr.sizeLoop m false vs (s.length : Int) = .ok ((s.length + out.length : Nat) : Int) := by
  induction vs generalizing s with
  | nil => exact ⟨[], Writes.pure s, rfl⟩
  | cons v vs ih =>
    obtain ⟨o1, a1, a2⟩ := h v (by simp) s
    obtain ⟨o2, b1, b2⟩ := ih (fun x hx => h x (by simp [hx])) (s ++ o1)
    refine ⟨[] ++ (o1 ++ o2), ?_, ?_⟩
    · refine Writes.bind (Writes.pure s) ?_
      rw [List.append_nil]
      exact a1.dropErr.bind b1
    · unfold ObjArr.sizeLoop
      dsimp only
      rw [if_neg (by decide), a2]
      dsimp only
      rw [show (s.length : Int) + (o1.length : Int) = ((s ++ o1).length : Nat) by simp, b2]
      simp only [List.length_append, List.nil_append]
      congr 2
      omega

/-- Unpacked arrays of objects without offset callbacks. -/
theorem objArr_size {m : Meth} (cfg : ArrCfg) (hu : cfg.isPacked = false) (hset : cfg.hasSet = false)
    (hchk : cfg.hasCheck = false) (vs : List Val) (h : ∀ v ∈ vs, SizeIs (m.marshal v) (m.bitSize v))
    (hlen : LenOk cfg vs.length) (hh : HeaderOk cfg vs.length) :
    SizeIs (ObjArr.marshal m cfg vs) (ObjArr.bitSize m cfg vs) := by
  intro s
  obtain ⟨a, a1, a2⟩ := header_size hlen hh s
  obtain ⟨b, b1, b2⟩ := objArr_sizeLoop vs h (s ++ a)
  refine ⟨a ++ b, a1.bind ?_, ?_⟩
  · rw [hu, hchk]
    cases vs with
    | nil => exact b1
    | cons v vs => exact b1
  · unfold ObjArr.bitSize
    rw [a2, hset]
    show (do let e ← ObjArr.sizeLoop m false vs ((s.length : Int) + (a.length : Nat)); pure (e - (s.length : Int))) = _
    rw [show (s.length : Int) + (a.length : Nat) = ((s ++ a).length : Nat) by simp, b2]
    show Except.ok _ = _
    congr 1
    simp only [List.length_append]
    omega

namespace Field
variable (ms : Nat → Meth) (B : Nat → Val → Prop) (f : Field) (x : Exprs)

/-- Arrays whose size is reported correctly: the size of the length field has to be (`LenAgree`); the array has to be empty
or unpacked; and elements of builtin type have to be of varying size and of a subtype. -/
def SizedArr (packed : Bool) (vs : List Val) : Prop :=
  (∀ l, x.len = some l → l = vs.length) ∧ (x.len = none → LenAgree vs.length) ∧
  match f.ty with
  | .prim k => vs = [] ∨ (packed = false ∧ f.cast = true ∧ (k.withWidth x.width).Wf ∧
      (k.withWidth x.width).traits.isConstant = false ∧ ∀ v ∈ vs, (k.withWidth x.width).SizeOkV v)
  | .comp n => vs = [] ∨ (packed = false ∧ setAll x 0 vs = vs ∧ ∀ v ∈ vs, B n v)

/-- Field values whose size is reported correctly. -/
def SizedVal (v : Val) : Prop :=
  match f.arr, f.ty with
  | some packed, _ => ∃ vs, v = .list vs ∧ f.SizedArr B x packed vs
  | none, .prim k => (k.withWidth x.width).Wf ∧ ∃ y, v = (k.withWidth x.width).inj y ∧ (k.withWidth x.width).Sized y
  | none, .comp n => setArgs x 0 v = v ∧ B n v

/-- Fields whose size is reported correctly. -/
def Sized (v : Val) : Prop :=
  x.active = true → f.align < 256 ∧
    if f.optional then v = .none ∨ ∃ u, v = .some u ∧ f.SizedVal B x u else f.SizedVal B x v

variable {ms B f x}

theorem arr_size (H : ∀ n v, B n v → SizeIs ((ms n).marshal v) ((ms n).bitSize v)) {packed : Bool} {vs : List Val}
    (ha : f.arr = some packed) (h : f.SizedArr B x packed vs) :
    SizeIs (f.writeArr ms x packed (.list vs)) (fun p => do let e ← f.sizeVal ms x (.list vs) p; pure (e - p)) := by
  obtain ⟨h1, h2, h3⟩ := h
  have hm : lenMatches x vs.length = true := by
    unfold lenMatches
    cases hx : x.len with
    | none => rfl
    | some l => exact decide_eq_true (h1 l hx)
  have hlen : LenOk (cfg x packed) vs.length := by
    unfold LenOk cfg
    cases hx : x.len with
    | none =>
      have := h2 hx
      unfold LenAgree at this
      unfold maxVarsize
      show vs.length ≤ _
      omega
    | some l => rw [h1 l hx]; rfl
  have hh : HeaderOk (cfg x packed) vs.length := by
    intro hauto
    apply h2
    unfold cfg at hauto
    simpa using hauto
  have key : ∀ (w : Wr Unit) (size : Int → Except Err Int), SizeIs w size →
      (∀ p, f.sizeVal ms x (.list vs) p = do let d ← size p; pure (p + d)) →
      SizeIs w (fun p => do let e ← f.sizeVal ms x (.list vs) p; pure (e - p)) := by
    intro w size hs he s
    obtain ⟨out, o1, o2⟩ := hs s
    refine ⟨out, o1, ?_⟩
    dsimp only
    rw [he, o2]
    show Except.ok _ = _
    congr 1
    omega
  unfold writeArr
  dsimp only
  rw [if_pos hm]
  cases ht : f.ty with
  | prim k =>
    rw [ht] at h3
    have hsz : ∀ p, f.sizeVal ms x (.list vs) p = (do
        let d ← Arr.bitSize (k.withWidth x.width).vt (cfg x packed) (if f.cast then vs else []) p
        pure (p + d)) := by
      intro p
      unfold sizeVal
      rw [ha, ht]
    refine key _ _ ?_ hsz
    rcases h3 with rfl | ⟨hp, hc, hw, hcon, hok⟩
    · rw [ite_self]
      exact arr_empty_size _ _ hlen
    · rw [hc, if_pos rfl]
      exact arr_varying_size (Elem.vt_exact _ hw) hcon _ hp rfl vs hok hlen hh
  | comp n =>
    rw [ht] at h3
    have hsz : ∀ p, f.sizeVal ms x (.list vs) p = (do
        let d ← ObjArr.bitSize (ms n) (cfg x packed) (setAll x 0 vs) p
        pure (p + d)) := by
      intro p
      unfold sizeVal
      rw [ha, ht]
    refine key _ _ ?_ hsz
    rcases h3 with rfl | ⟨hp, hs, hok⟩
    · intro s
      obtain ⟨a, a1, a2⟩ := header_size hlen (fun _ => by show LenAgree 0; unfold LenAgree; decide) s
      refine ⟨a ++ [], a1.bind (Writes.pure _), ?_⟩
      show ObjArr.bitSize (ms n) (cfg x packed) [] s.length = _
      unfold ObjArr.bitSize
      rw [a2]
      show Except.ok _ = _
      congr 1
      simp
    · rw [hs]
      exact objArr_size _ hp rfl rfl vs (fun v hv => H n v (hok v hv)) hlen hh

theorem val_size (H : ∀ n v, B n v → SizeIs ((ms n).marshal v) ((ms n).bitSize v)) {v : Val} (h : f.SizedVal B x v)
    (s : List Bool) :
    ∃ out, Writes (f.writeVal ms x v) s out ∧ f.sizeVal ms x v s.length = .ok ((s.length + out.length : Nat) : Int) := by
  unfold SizedVal at h
  unfold writeVal
  cases ha : f.arr with
  | some packed =>
    rw [ha] at h
    obtain ⟨vs, rfl, h⟩ := h
    obtain ⟨out, o1, o2⟩ := arr_size H ha h s
    refine ⟨out, o1, ?_⟩
    dsimp only at o2
    cases hr : f.sizeVal ms x (.list vs) s.length with
    | error e => rw [hr] at o2; cases o2
    | ok e =>
      rw [hr] at o2
      have : (.ok (e - (s.length : Int)) : Except Err Int) = .ok (out.length : Int) := o2
      injection this with this
      congr 1
      push_cast
      omega
  | none =>
    rw [ha] at h
    cases ht : f.ty with
    | prim k =>
      rw [ht] at h
      obtain ⟨hw, y, rfl, hy⟩ := h
      obtain ⟨out, o1, o2⟩ := Elem.scalar_size _ hw y hy s
      refine ⟨out, ?_, ?_⟩
      · dsimp only
        rw [Elem.val_inj]; exact o1
      · unfold sizeVal
        rw [ha, ht]
        dsimp only
        rw [Elem.val_inj, o2]
        rfl
    | comp n =>
      rw [ht] at h
      obtain ⟨out, o1, o2⟩ := H n v h.2 s
      refine ⟨out, ?_, ?_⟩
      · dsimp only
        rw [h.1]; exact o1
      · unfold sizeVal
        rw [ha, ht]
        dsimp only
        rw [h.1, o2]
        rfl

theorem align_size (f : Field) (h : f.align < 256) (s : List Bool) :
    ∃ pad, Writes f.alignWr s pad ∧ f.sizeAlign s.length = .ok ((s.length + pad.length : Nat) : Int) := by
  obtain ⟨pad, h1, h2, _⟩ := align_rt f h s
  refine ⟨pad, h2, ?_⟩
  unfold sizeAlign
  by_cases h0 : f.align = 0
  · rw [if_pos h0] at h1 ⊢
    rw [h1]; rfl
  · rw [if_neg h0] at h1 ⊢
    rw [Int.toNat_natCast, countAlignBits_eq (by omega), ← h1]
    rfl

theorem encode_size (H : ∀ n v, B n v → SizeIs ((ms n).marshal v) ((ms n).bitSize v)) {v : Val} (h : f.Sized B x v)
    (s : List Bool) :
    ∃ out, Writes (f.encode ms x v) s out ∧ f.size ms x v s.length = .ok ((s.length + out.length : Nat) : Int) := by
  unfold encode size
  cases hx : x.active with
  | false => exact ⟨[], Writes.pure s, rfl⟩
  | true =>
    obtain ⟨hal, h⟩ := h hx
    obtain ⟨pad, p1, p2⟩ := align_size f hal s
    rw [if_pos rfl, if_pos rfl, p2]
    have p2' : ∀ k : Int → Except Err Int, ((Except.ok ((s.length + pad.length : Nat) : Int) : Except Err Int) >>= k) =
        k ((s.length + pad.length : Nat) : Int) := fun _ => rfl
    rw [p2']
    cases ho : f.optional with
    | false =>
      rw [ho, if_neg (by decide)] at h
      rw [if_neg (by decide), if_neg (by decide)]
      obtain ⟨out, o1, o2⟩ := val_size (s := s ++ pad) H h
      refine ⟨pad ++ out, p1.bind o1, ?_⟩
      rw [List.length_append] at o2
      rw [o2, List.length_append, Nat.add_assoc]
    | true =>
      rw [ho, if_pos rfl] at h
      rw [if_pos rfl, if_pos rfl]
      rcases h with rfl | ⟨u, rfl, hu⟩
      · obtain ⟨b, hl, b1, _⟩ := bool_rtl false (s ++ pad)
        refine ⟨pad ++ b, p1.bind b1, ?_⟩
        rw [List.length_append, hl]
        rfl
      · obtain ⟨b, hl, b1, _⟩ := bool_rtl true (s ++ pad)
        obtain ⟨out, o1, o2⟩ := val_size (s := s ++ pad ++ b) H hu
        refine ⟨pad ++ (b ++ out), p1.bind (b1.bind o1), ?_⟩
        rw [List.length_append, List.length_append, hl] at o2
        dsimp only
        rw [show ((s.length + pad.length : Nat) : Int) + 1 = ((s.length + pad.length + 1 : Nat) : Int) by push_cast; rfl, o2]
        congr 2
        simp only [List.length_append, hl]
        omega

end Field

section
variable {ms : Nat → Meth} (B : Nat → Val → Prop)

def SizedLoop (env : Env) : List Field → List Val → Prop
  | f :: fs, v :: vs => f.Sized B (f.exprs env) v ∧ SizedLoop env fs vs
  | [], [] => True
  | _, _ => False

def SizedAt (fs : List Field) (i : Nat) (ps vs : List Val) : Prop :=
  ∃ f v, fs[i]? = some f ∧ vs[i]? = some v ∧ f.Sized B (f.exprs ⟨ps, vs⟩) v

/-- Objects whose size is reported correctly. -/
def Decl.Sized (d : Decl) (v : Val) : Prop :=
  match d with
  | .struct fs => ∃ t ps vs, v = .obj t ps vs ∧ SizedLoop B ⟨ps, vs⟩ fs vs
  | .union fs => ∃ t ps vs, v = .obj t ps vs ∧ t ≤ maxVarsize ∧ (1 ≤ t ∧ t ≤ fs.length → SizedAt B fs (t - 1) ps vs)
  | .choice sel cases dflt => ∃ t ps vs, v = .obj t ps vs ∧
      ∀ i, pick (sel ps) cases dflt = some i → SizedAt B (choiceFields cases dflt) i ps vs
  | .enum k => k.Wf ∧ ∃ y, v = k.inj y ∧ k.Sized y

variable {B}

theorem loop_size (H : ∀ n v, B n v → SizeIs ((ms n).marshal v) ((ms n).bitSize v)) (env : Env) (fs : List Field)
    (vs : List Val) (h : SizedLoop B env fs vs) (s : List Bool) :
    ∃ out, Writes (encLoop ms env fs vs) s out ∧ sizeLoop ms env fs vs s.length = .ok ((s.length + out.length : Nat) : Int) := by
  induction fs generalizing vs s with
  | nil =>
    cases vs <;> simp only [SizedLoop] at h
    exact ⟨[], Writes.pure s, rfl⟩
  | cons f fs ih =>
    cases vs <;> simp only [SizedLoop] at h
    rename_i v vs
    obtain ⟨o1, a1, a2⟩ := Field.encode_size H h.1 s
    obtain ⟨o2, b1, b2⟩ := ih vs h.2 (s ++ o1)
    refine ⟨o1 ++ o2, a1.bind b1, ?_⟩
    unfold sizeLoop
    rw [a2]
    rw [List.length_append] at b2
    show sizeLoop ms env fs vs ((s.length + o1.length : Nat) : Int) = _
    rw [b2, List.length_append, Nat.add_assoc]

theorem at_size (H : ∀ n v, B n v → SizeIs ((ms n).marshal v) ((ms n).bitSize v)) (fs : List Field) (i : Nat)
    (ps vs : List Val) (h : SizedAt B fs i ps vs) (s : List Bool) :
    ∃ out, Writes (encAt ms fs i ps vs) s out ∧ sizeAt ms fs i ps vs s.length = .ok ((s.length + out.length : Nat) : Int) := by
  obtain ⟨f, v, hf, hv, h⟩ := h
  unfold encAt sizeAt
  rw [hf, hv]
  exact Field.encode_size H h s

theorem decl_size (H : ∀ n v, B n v → SizeIs ((ms n).marshal v) ((ms n).bitSize v)) (d : Decl) (v : Val) (h : d.Sized B v) :
    SizeIs ((d.meth ms).marshal v) ((d.meth ms).bitSize v) := by
  have sub : ∀ (a b : Nat), (pure (((a + b : Nat) : Int) - (a : Int)) : Except Err Int) = .ok (b : Int) := by
    intro a b
    show Except.ok _ = _
    congr 1
    push_cast
    omega
  intro s
  cases d with
  | struct fs =>
    obtain ⟨t, ps, vs, rfl, h⟩ := h
    obtain ⟨out, o1, o2⟩ := loop_size H ⟨ps, vs⟩ fs vs h s
    refine ⟨out, o1, ?_⟩
    show (do let e ← sizeLoop ms ⟨ps, vs⟩ fs vs s.length; pure (e - (s.length : Int))) = _
    rw [o2]
    exact sub _ _
  | union fs =>
    obtain ⟨t, ps, vs, rfl, ht, h⟩ := h
    have e : (BitVec.ofNat 64 t).toNat = t := ofNat64_toNat (by unfold maxVarsize at ht; omega)
    obtain ⟨a, a1, a2, _⟩ := varsize_rt (BitVec.ofNat 64 t) (by rw [e]; exact ht) s
    have hb : ∃ b, Writes (if 1 ≤ t ∧ t ≤ fs.length then encAt ms fs (t - 1) ps vs else pure ()) (s ++ a) b ∧
        (if 1 ≤ t ∧ t ≤ fs.length then sizeAt ms fs (t - 1) ps vs ((s.length : Int) + (a.length : Nat))
          else pure ((s.length : Int) + (a.length : Nat))) = .ok ((s.length + (a ++ b).length : Nat) : Int) := by
      by_cases hc : 1 ≤ t ∧ t ≤ fs.length
      · rw [if_pos hc, if_pos hc]
        obtain ⟨b, b1, b2⟩ := at_size (s := s ++ a) H fs (t - 1) ps vs (h hc)
        refine ⟨b, b1, ?_⟩
        rw [show (s.length : Int) + (a.length : Nat) = ((s ++ a).length : Nat) by simp, b2]
        simp only [List.length_append, Nat.add_assoc]
      · rw [if_neg hc, if_neg hc]
        exact ⟨[], Writes.pure _, by rw [List.append_nil]; rfl⟩
    obtain ⟨b, b1, b2⟩ := hb
    refine ⟨a ++ b, a2.bind b1, ?_⟩
    show (do
      let d ← unsignedBitSize (BitVec.ofNat 64 t) 5
      let e ← if 1 ≤ t ∧ t ≤ fs.length then sizeAt ms fs (t - 1) ps vs ((s.length : Int) + (d : Nat))
        else pure ((s.length : Int) + (d : Nat))
      pure (e - (s.length : Int))) = _
    rw [a1]
    by_cases hc : 1 ≤ t ∧ t ≤ fs.length
    · rw [if_pos hc] at b2
      simp only [if_pos hc]
      show (do let e ← sizeAt ms fs (t - 1) ps vs ((s.length : Int) + (a.length : Nat)); pure (e - (s.length : Int))) = _
      rw [b2]
      exact sub _ _
    · rw [if_neg hc] at b2
      simp only [if_neg hc]
      show (do let e ← (pure ((s.length : Int) + (a.length : Nat)) : Except Err Int); pure (e - (s.length : Int))) = _
      rw [b2]
      exact sub _ _
  | choice sel cases dflt =>
    obtain ⟨t, ps, vs, rfl, h⟩ := h
    cases hp : pick (sel ps) cases dflt with
    | none =>
      refine ⟨[], ?_, ?_⟩
      · show Writes (match pick (sel ps) cases dflt with
          | some i => encAt ms (choiceFields cases dflt) i ps vs
          | none => pure ()) s []
        rw [hp]; exact Writes.pure s
      · show (do
          let e ← match pick (sel ps) cases dflt with
            | some i => sizeAt ms (choiceFields cases dflt) i ps vs s.length
            | none => pure (s.length : Int)
          pure (e - (s.length : Int))) = _
        rw [hp]
        exact sub s.length 0
    | some i =>
      obtain ⟨b, b1, b2⟩ := at_size H _ i ps vs (h i hp) s
      refine ⟨b, ?_, ?_⟩
      · show Writes (match pick (sel ps) cases dflt with
          | some i => encAt ms (choiceFields cases dflt) i ps vs
          | none => pure ()) s b
        rw [hp]; exact b1
      · show (do
          let e ← match pick (sel ps) cases dflt with
            | some i => sizeAt ms (choiceFields cases dflt) i ps vs s.length
            | none => pure (s.length : Int)
          pure (e - (s.length : Int))) = _
        rw [hp]
        show (do let e ← sizeAt ms (choiceFields cases dflt) i ps vs s.length; pure (e - (s.length : Int))) = _
        rw [b2]
        exact sub _ _
  | enum k =>
    obtain ⟨hw, y, rfl, hy⟩ := h
    obtain ⟨out, o1, o2⟩ := Elem.scalar_size k hw y hy s
    refine ⟨out, ?_, ?_⟩
    · show Writes (k.writeS (k.val (k.inj y))) s out
      rw [k.val_inj]; exact o1
    · show (do let d ← k.sizeS (k.val (k.inj y)); pure (d : Int)) = _
      rw [k.val_inj, o2]
      rfl

end

/-- `Decl.Sized` at nesting level `n`. -/
def Sized (schema : Nat → Decl) : Nat → Nat → Val → Prop
  | 0, _, _ => False
  | n + 1, name, v => (schema name).Sized (Sized schema n) v

/-- C26: for every schema, every type of it and every value whose scalars are in range, `ZserioBitSize(pos)` is the number of
bits `MarshalZserio` writes at `pos`, whatever `pos` is.  Missing from the full claim (`Sized` leaves them out, in all of
them the reported size is wrong for some positions or values): bytes and extern fields, non-empty arrays of builtin types
(except unpacked ones of varying-size subtypes), packed arrays, and array lengths outside `LenAgree`. -/
theorem C26_bit_size_partial (schema : Nat → Decl) (n name : Nat) (v : Val) (h : Sized schema n name v) (s : List Bool) :
    ∃ out, Writes ((methods schema n name).marshal v) s out ∧
      (methods schema n name).bitSize v (s.length : Int) = .ok (out.length : Int) := by
  have key : ∀ n name v, Sized schema n name v →
      SizeIs ((methods schema n name).marshal v) ((methods schema n name).bitSize v) := by
    intro n
    induction n with
    | zero => exact fun _ _ h => h.elim
    | succ n ih => exact fun name v h => decl_size ih (schema name) v h
  exact key n name v h s

/-- `subtype varuint Id; struct P { int:5 x; align(8) optional string label; Id ids[]; P2 subs[]; };` with
`struct P2 { bool b; };` -/
def exSized : Nat → Decl
  | 0 => .struct [⟨noExprs, 0, false, .prim (.sbits 8 5), none, false⟩, ⟨noExprs, 8, true, .prim .string, none, false⟩,
      ⟨noExprs, 0, false, .prim .varuint, some false, true⟩, ⟨noExprs, 0, false, .comp 1, some false, false⟩]
  | _ => .struct [⟨noExprs, 0, false, .prim .bool, none, false⟩]

def exSizedVal (x : BitVec 8) (b c : Bool) : Val := .obj 0 [] [.bits 8 x, .some (.str [0x61#8]),
  .list [.bits 64 3#64, .bits 64 1000#64], .list [.obj 0 [] [.bool b], .obj 0 [] [.bool c], .obj 0 [] [.bool b]]]

theorem exSized_ok (x : BitVec 8) (hx : FitsS 5 x) (b c : Bool) : Sized exSized 2 0 (exSizedVal x b c) := by
  have hb : ∀ b, Sized exSized 1 1 (.obj 0 [] [.bool b]) := fun b =>
    ⟨0, [], _, rfl, fun _ => ⟨by decide, trivial, b, rfl, trivial⟩, trivial⟩
  refine ⟨0, [], _, rfl, fun _ => ⟨by decide, ⟨by decide, by decide, by decide⟩, x, rfl, hx⟩,
    fun _ => ⟨by decide, Or.inr ⟨_, rfl, trivial, ([0x61#8] : List Byte), rfl, show 1 ≤ maxVarsize by decide⟩⟩,
    fun _ => ⟨by decide, _, rfl, ?_⟩,
    fun _ => ⟨by decide, _, rfl, ?_⟩, trivial⟩
  · refine ⟨fun l hl => ?_, fun _ => ?_, Or.inr ⟨rfl, rfl, trivial, rfl, fun v hv => ?_⟩⟩
    · cases hl
    · show LenAgree 2
      decide
    simp only [List.mem_cons, List.not_mem_nil, or_false] at hv
    rcases hv with rfl | rfl
    · exact ⟨(3#64 : BitVec 64), rfl, show BitVec.toNat 3#64 ≤ 2 ^ 56 - 1 by decide⟩
    · exact ⟨(1000#64 : BitVec 64), rfl, show BitVec.toNat 1000#64 ≤ 2 ^ 56 - 1 by decide⟩
  · refine ⟨fun l hl => ?_, fun _ => ?_, Or.inr ⟨rfl, rfl, fun v hv => ?_⟩⟩
    · cases hl
    · show LenAgree 3
      decide
    simp only [List.mem_cons, List.not_mem_nil, or_false] at hv
    rcases hv with rfl | rfl | rfl <;> exact hb _

example (s : List Bool) (b c : Bool) : ∃ out, Writes ((methods exSized 2 0).marshal (exSizedVal 0xfd#8 b c)) s out ∧
    (methods exSized 2 0).bitSize (exSizedVal 0xfd#8 b c) (s.length : Int) = .ok (out.length : Int) :=
  C26_bit_size_partial exSized 2 0 _ (exSized_ok _ (by unfold FitsS SignedFits; decide) b c) s

/-- A struct with the one field. -/
def exOne (f : Field) : Nat → Decl := fun _ => .struct [f]

/-- C26 does not hold as stated: `bytes b;` with one byte takes 16 bits, 8 are reported. -/
theorem C26_violated_bytes :
    let m := methods (exOne ⟨noExprs, 0, false, .prim .bytes, none, false⟩) 1 0
    let v : Val := .obj 0 [] [.bytes (some ⟨[0x61#8], 1#64⟩)]
    (wrun (m.marshal v) []).1 = .ok () ∧ (wrun (m.marshal v) []).2.length = 16 ∧ m.bitSize v 0 = .ok 8 := by
  decide +kernel

/-- C26 does not hold as stated: `uint8 a[];` with two elements takes 24 bits, 8 are reported. -/
theorem C26_violated_array :
    let m := methods (exOne ⟨noExprs, 0, false, .prim (.bits 8 8), some false, false⟩) 1 0
    let v : Val := .obj 0 [] [.list [.bits 8 1#8, .bits 8 2#8]]
    (wrun (m.marshal v) []).1 = .ok () ∧ (wrun (m.marshal v) []).2.length = 24 ∧ m.bitSize v 0 = .ok 8 := by
  decide +kernel

/-- C26 does not hold as stated: with `subtype uint16 Id;`, `packed Id a[];` with three equal elements takes 8 + 7 + 16 bits,
the unpacked size of 56 bits is reported. -/
theorem C26_violated_packed :
    let m := methods (exOne ⟨noExprs, 0, false, .prim (.bits 16 16), some true, true⟩) 1 0
    let v : Val := .obj 0 [] [.list [.bits 16 7#16, .bits 16 7#16, .bits 16 7#16]]
    (wrun (m.marshal v) []).1 = .ok () ∧ (wrun (m.marshal v) []).2.length = 31 ∧ m.bitSize v 0 = .ok 56 := by
  decide +kernel

/-- C26 does not hold as stated: an array of 64 objects of one bit each takes 8 + 64 bits, 80 are reported. -/
theorem C26_violated_length :
    let m := methods exSized 1 1
    let vs : List Val := List.replicate 64 (.obj 0 [] [.bool true])
    (wrun (ObjArr.marshal m ⟨0, true, false, false, false⟩ vs) []).2.length = 72 ∧
      ObjArr.bitSize m ⟨0, true, false, false, false⟩ vs 0 = .ok 80 := by
  decide +kernel

end Verif
