import Verif.Schema
import Verif.Props.Array

/-!
# What generated code transmits

For every schema: the values (`Accepts`) that survive `MarshalZserio`/`UnmarshalZserio` and their packed versions.
-/

namespace Verif

/-! ## Scalars -/

/-- A field value of the builtin type within its value range. -/
def Elem.OkV (k : Elem) (v : Val) : Prop := ∃ y, v = k.inj y ∧ k.Ok y

theorem Elem.vt_rt (k : Elem) (hk : k.Wf) : k.vt.RT k.OkV := by
  rintro _ ⟨y, rfl, hy⟩ s
  obtain ⟨out, h1, h2⟩ := k.rt hk y hy s
  refine ⟨out, ?_, Reads.map (f := k.inj) h2⟩
  show Writes (k.traits.write (k.val (k.inj y))) s out
  rw [k.val_inj]; exact h1

theorem Elem.vt_recover (k : Elem) (hk : k.Wf) (hi : k.IntLike) : k.vt.Recover k.OkV := by
  rintro _ ⟨y, rfl, hy⟩
  show k.inj (k.traits.fromU64 (k.traits.asU64 (k.val (k.inj y)))) = _
  rw [k.val_inj, k.recover hk hi y hy]

theorem Elem.scalar_rt (k : Elem) (hk : k.Wf) (y : k.T) (hy : k.Ok y) : RoundTrip (k.writeS y) k.readS y := by
  cases k with
  | bits w n =>
    intro s
    have hy : BitVec.toNat (y : BitVec w) < 2 ^ n := hy
    have e := setWidth64_toNat hk.2.2 (y : BitVec w)
    obtain ⟨out, _, h1, h2⟩ := C01_unsigned_bits_roundtrip (BitVec.setWidth 64 (y : BitVec w)) n
      (by have := hk.2.1; have := hk.2.2; omega) (by rw [e]; exact hy) s
    refine ⟨out, h1, ?_⟩
    have h3 := Reads.map (f := fun v : BitVec 64 => v.setWidth w) h2
    rwa [show BitVec.setWidth w (BitVec.setWidth 64 (y : BitVec w)) = y from setWidth_setWidth64 hk.2.2 _] at h3
  | sbits w n =>
    intro s
    have hy : SignedFits (BitVec.toInt (y : BitVec w)) n := hy
    have e := BitVec.toInt_signExtend_of_le (x := (y : BitVec w)) hk.2.2
    obtain ⟨out, _, h1, h2⟩ := C02_signed_bits_roundtrip (BitVec.signExtend 64 (y : BitVec w)) n hk.1
      (by have := hk.2.1; have := hk.2.2; omega) (by rw [e]; exact hy.1) (by rw [e]; exact hy.2) s
    refine ⟨out, h1, ?_⟩
    have h3 := Reads.map (f := fun v : BitVec 64 => v.setWidth w) h2
    rwa [show BitVec.setWidth w (BitVec.signExtend 64 (y : BitVec w)) = y from setWidth_signExtend64 hk.2.2 _] at h3
  | varint => exact Elem.rt .varint hk y hy
  | varint16 => exact Elem.rt .varint16 hk y hy
  | varint32 => exact Elem.rt .varint32 hk y hy
  | varint64 => exact Elem.rt .varint64 hk y hy
  | varuint => exact Elem.rt .varuint hk y hy
  | varuint16 => exact Elem.rt .varuint16 hk y hy
  | varuint32 => exact Elem.rt .varuint32 hk y hy
  | varuint64 => exact Elem.rt .varuint64 hk y hy
  | varsize => exact Elem.rt .varsize hk y hy
  | bool => exact Elem.rt .bool hk y hy
  | string => exact Elem.rt .string hk y hy
  | bytes => exact Elem.rt .bytes hk y hy
  | extern => exact Elem.rt .extern hk y hy
  | float16 => exact Elem.rt .float16 hk y hy
  | float32 => exact Elem.rt .float32 hk y hy
  | float64 => exact Elem.rt .float64 hk y hy

theorem Elem.scalarV_rt (k : Elem) (hk : k.Wf) (v : Val) (hv : k.OkV v) :
    RoundTrip (k.writeS (k.val v)) (do let x ← k.readS; pure (k.inj x)) v := by
  obtain ⟨y, rfl, hy⟩ := hv
  intro s
  obtain ⟨out, h1, h2⟩ := k.scalar_rt hk y hy s
  exact ⟨out, by rw [k.val_inj]; exact h1, Reads.map (f := k.inj) h2⟩

theorem Elem.isDelta_withWidth (k : Elem) (o : Option Nat) : (k.withWidth o).isDelta = k.isDelta := by
  cases k <;> cases o <;> rfl

theorem Elem.isDelta_intLike {k : Elem} (h : k.isDelta = true) : k.IntLike := by
  cases k <;> trivial

/-! ## The values a field transmits -/

/-- Which old and new values go together: unpacked (`false`) and packed (`true`), per type. -/
abbrev Acc := Bool → Nat → Val → Val → Prop

namespace Field
variable (ms : Nat → Meth) (A : Acc) (f : Field) (x : Exprs)

/-- Array fields: the length is the declared one or can be transmitted; builtin elements are in range, and integers or
booleans if the array is packed; objects have the type arguments the schema gives them. -/
def OkArr (packed : Bool) (v : Val) : Prop :=
  ∃ vs, v = .list vs ∧ (∀ l, x.len = some l → l = vs.length) ∧ (x.len = none → vs.length ≤ maxVarsize) ∧
    match f.ty with
    | .prim k => (k.withWidth x.width).Wf ∧ (packed = true → (k.withWidth x.width).IntLike) ∧
        ∀ v ∈ vs, (k.withWidth x.width).OkV v
    | .comp n => setAll x 0 vs = vs ∧ ElemsOk (A packed n) (ms n).zero (setArgs x) 0 vs ∧
        (packed = true → ∃ c, (ms n).create Ctx.empty = .ok c)

/-- A present field; `p` says whether the surrounding object is packed. -/
def OkVal (p : Bool) (old v : Val) : Prop :=
  match f.arr, f.ty with
  | some packed, _ => f.OkArr ms A x (packed || p) v
  | none, .prim k => (k.withWidth x.width).Wf ∧ (k.withWidth x.width).OkV v
  | none, .comp n => setArgs x 0 v = v ∧ A p n (setArgs x 0 old) v

/-- Any field.  A field whose clause is false is not transmitted. -/
def Ok (p : Bool) (old v : Val) : Prop :=
  if x.active then
    f.align < 256 ∧
      (if f.optional then v = .none ∨ ∃ u, v = .some u ∧ f.OkVal ms A x p (f.zeroVal ms) u else f.OkVal ms A x p old v)
  else v = old

/-- The laws of the referenced types. -/
def Laws : Prop := ∀ n, (ms n).RT (A false n) ∧ (ms n).Packs (A true n)

variable {ms A f x}

theorem lenOk {packed : Bool} {n : Nat} (h1 : ∀ l, x.len = some l → l = n) (h2 : x.len = none → n ≤ maxVarsize) :
    LenOk (cfg x packed) n := by
  unfold LenOk cfg
  cases h : x.len with
  | none => simpa using h2 h
  | some l => have := h1 l h; subst this; simp

theorem arr_rt (H : Laws ms A) {packed : Bool} {v : Val} (h : f.OkArr ms A x packed v) :
    RoundTrip (f.writeArr ms x packed v) (f.readArr ms x packed) v := by
  obtain ⟨vs, rfl, h1, h2, h3⟩ := h
  have hl := lenOk (packed := packed) h1 h2
  have hm : lenMatches x vs.length = true := by
    unfold lenMatches
    cases h : x.len with
    | none => rfl
    | some l => simpa using h1 l h
  have hn : ¬ x.len.getD 0 < 0 := by
    cases h : x.len with
    | none => simp
    | some l => have := h1 l h; subst this; simp
  unfold writeArr readArr
  dsimp only
  rw [if_pos hm, if_neg hn]
  cases ht : f.ty with
  | prim k =>
    rw [ht] at h3
    obtain ⟨hw, hi, hok⟩ := h3
    dsimp only
    have : RoundTrip (Arr.marshalW (k.withWidth x.width).vt (cfg x packed) vs)
        (Arr.unmarshal (k.withWidth x.width).vt (cfg x packed)) vs := by
      cases packed with
      | false => exact arr_plain_rt (Elem.vt_rt _ hw) _ rfl vs hok hl
      | true => exact arr_packed_rt (Elem.vt_rt _ hw) (Elem.vt_recover _ hw (hi rfl)) _ rfl vs hok hl
    intro s
    obtain ⟨out, a, b⟩ := this s
    exact ⟨out, a, Reads.map (f := Val.list) b⟩
  | comp n =>
    rw [ht] at h3
    obtain ⟨hs, hok, hc⟩ := h3
    dsimp only
    rw [hs]
    have : RoundTrip (ObjArr.marshal (ms n) (cfg x packed) vs)
        (ObjArr.unmarshal (ms n) (cfg x packed) (setArgs x)) vs := by
      cases packed with
      | false => exact ObjArr.marshal_rt (H n).1 _ rfl _ vs hok hl
      | true =>
        obtain ⟨c, hc⟩ := hc rfl
        exact ObjArr.marshal_packed_rt (H n).2 hc _ rfl _ vs hok hl
    intro s
    obtain ⟨out, a, b⟩ := this s
    exact ⟨out, a, Reads.map (f := Val.list) b⟩

theorem align_rt (f : Field) (h : f.align < 256) (s : List Bool) :
    ∃ pad, pad.length = (if f.align = 0 then 0 else padBits s.length f.align) ∧ Writes f.alignWr s pad ∧
      Reads f.alignRd pad s.length () := by
  unfold alignWr alignRd
  by_cases h0 : f.align = 0
  · rw [if_pos h0, if_pos h0, if_pos h0]
    exact ⟨[], rfl, Writes.pure s, Reads.pure () _⟩
  · rw [if_neg h0, if_neg h0, if_neg h0]
    refine ⟨List.replicate (padBits s.length f.align) false, List.length_replicate, ?_, ?_⟩
    · unfold Writes
      rw [wrun_bind, wrun_alignW (by omega) h]
      rfl
    · intro rest
      rw [rrun_bind, rrun_alignR (by omega) h _ _ _ List.length_replicate]
      rfl

theorem val_rt (H : Laws ms A) {old v : Val} (h : f.OkVal ms A x false old v) :
    RoundTrip (f.writeVal ms x v) (f.readVal ms x old) v := by
  unfold OkVal at h
  unfold writeVal readVal
  cases ha : f.arr with
  | some packed =>
    rw [ha] at h
    simp only [Bool.or_false] at h
    exact arr_rt H h
  | none =>
    rw [ha] at h
    cases ht : f.ty with
    | prim k => rw [ht] at h; exact Elem.scalarV_rt _ h.1 v h.2
    | comp n =>
      rw [ht] at h
      dsimp only
      rw [h.1]
      exact (H n).1 _ v h.2

theorem bool_rt (b : Bool) : RoundTrip (writeBool b) readBool b := (bool_rtl b).rt

theorem rt (H : Laws ms A) {old v : Val} (h : f.Ok ms A x false old v) :
    RoundTrip (f.encode ms x v) (f.decode ms x old) v := by
  unfold Ok at h
  unfold encode decode
  cases hx : x.active with
  | false =>
    rw [hx, if_neg (by decide)] at h
    subst h
    exact fun s => ⟨[], Writes.pure s, Reads.pure _ _⟩
  | true =>
    rw [hx, if_pos rfl] at h
    obtain ⟨hal, h⟩ := h
    rw [if_pos rfl, if_pos rfl]
    intro s
    obtain ⟨pad, _, p1, p2⟩ := align_rt f hal s
    cases ho : f.optional with
    | false =>
      rw [ho, if_neg (by decide)] at h
      obtain ⟨out, a, b⟩ := val_rt H h (s ++ pad)
      rw [List.length_append] at b
      exact ⟨pad ++ out, p1.bind a, p2.bind b⟩
    | true =>
      rw [ho, if_pos rfl] at h
      rcases h with rfl | ⟨u, rfl, h⟩
      · obtain ⟨out, a, b⟩ := bool_rt false (s ++ pad)
        rw [List.length_append] at b
        refine ⟨pad ++ out, p1.bind a, p2.bind ?_⟩
        have := b.bind (k := fun present => if present then do
            let v ← f.readVal ms x (f.zeroVal ms)
            pure (Val.some v)
          else pure Val.none) (Reads.pure Val.none _)
        rwa [List.append_nil] at this
      · obtain ⟨o1, a1, b1⟩ := bool_rt true (s ++ pad)
        obtain ⟨o2, a2, b2⟩ := val_rt H h (s ++ pad ++ o1)
        rw [List.length_append] at b1
        rw [List.length_append, List.length_append] at b2
        refine ⟨pad ++ (o1 ++ o2), p1.bind (a1.bind a2), p2.bind (b1.bind ?_)⟩
        exact Reads.map (f := Val.some) b2

/-! ## Packed fields -/

/-- The value handed on if the field is transmitted. -/
def present (f : Field) (e : Exprs × Val) : Option (Exprs × Val) :=
  if e.1.active then
    if f.optional then
      match e.2 with
      | .some u => some (e.1, u)
      | _ => none
    else some (e.1, e.2)
  else none

variable (ms A) in
/-- Like `Meth.Packs`, for the values of one field. -/
def Packs (f : Field) : Prop :=
  ∃ (I : Ctx → List (Exprs × Val) → Prop) (R : Ctx → Ctx → List (Exprs × Val) → Prop),
    (∀ c0, f.create ms = .ok c0 → I c0 [] ∧ (∀ c es, I c es → R c c0 es) ∧ ∀ es, R c0 c0 es) ∧
    (∀ c es x old v, I c es → f.Ok ms A x true old v → ∃ c', f.init ms x v c = (.ok (), c') ∧ I c' (es ++ [(x, v)])) ∧
    (∀ cw cr x old v es, f.Ok ms A x true old v → R cw cr ((x, v) :: es) → ∀ s, ∃ out cw' cr',
      WM.run (f.encodeP ms x v cw) s = ((.ok (), cw'), s ++ out) ∧
      Reads (f.decodeP ms x old cr) out s.length (v, cr') ∧ R cw' cr' es)

variable (ms A) in
/-- The same for present values. -/
def PacksVal (f : Field) : Prop :=
  ∃ (I : Ctx → List (Exprs × Val) → Prop) (R : Ctx → Ctx → List (Exprs × Val) → Prop),
    (∀ c0, f.create ms = .ok c0 → I c0 [] ∧ (∀ c es, I c es → R c c0 es) ∧ ∀ es, R c0 c0 es) ∧
    (∀ c es x old v, I c es → f.OkVal ms A x true old v →
      ∃ c', f.initVal ms x v c = (.ok (), c') ∧ I c' (es ++ [(x, v)])) ∧
    (∀ cw cr x old v es, f.align < 256 → f.OkVal ms A x true old v → R cw cr ((x, v) :: es) → ∀ s, ∃ out cw' cr',
      WM.run (f.writeValP ms x v cw) s = ((.ok (), cw'), s ++ out) ∧
      Reads (f.readValP ms x old cr) out s.length (v, cr') ∧ R cw' cr' es)

theorem run_lift {σ : Type} {w : Wr Unit} {s out : List Bool} (h : Writes w s out) (c : σ) :
    WM.run (WS.lift w c) s = ((.ok (), c), s ++ out) := by
  unfold WS.lift
  rw [WM.run_bind]
  unfold Writes wrun at h
  rw [h]
  rfl

theorem run_seq_lift {σ : Type} {w : Wr Unit} {b : WS σ} {s out : List Bool} (h : Writes w s out) (c : σ) :
    WM.run (WS.seq (WS.lift w) b c) s = WM.run (b c) (s ++ out) := by
  unfold WS.seq
  rw [WM.run_bind, run_lift h]

/-- From values to fields: clause and presence flag. -/
theorem PacksVal.packs (h : f.PacksVal ms A) : f.Packs ms A := by
  obtain ⟨I, R, h0, hi, hs⟩ := h
  refine ⟨fun c es => I c (es.filterMap f.present), fun cw cr es => R cw cr (es.filterMap f.present), ?_, ?_, ?_⟩
  · intro c0 hc
    obtain ⟨a, b, c⟩ := h0 c0 hc
    exact ⟨a, fun _ _ => b _ _, fun _ => c _⟩
  · intro c es x old v hI hok
    dsimp only
    rw [List.filterMap_append]
    unfold Ok at hok
    unfold init
    cases hx : x.active with
    | false =>
      rw [if_neg (by decide)]
      exact ⟨c, rfl, by simpa [present, hx] using hI⟩
    | true =>
      rw [hx, if_pos rfl] at hok
      rw [if_pos rfl]
      cases ho : f.optional with
      | false =>
        rw [ho, if_neg (by decide)] at hok
        rw [if_neg (by decide)]
        obtain ⟨c', a, b⟩ := hi c _ x old v hI hok.2
        exact ⟨c', a, by simpa [present, hx, ho] using b⟩
      | true =>
        rw [ho, if_pos rfl] at hok
        rw [if_pos rfl]
        rcases hok.2 with rfl | ⟨u, rfl, h⟩
        · exact ⟨c, rfl, by simpa [present, hx, ho] using hI⟩
        · obtain ⟨c', a, b⟩ := hi c _ x _ u hI h
          exact ⟨c', a, by simpa [present, hx, ho] using b⟩
  · intro cw cr x old v es hok hR s
    dsimp only at hR ⊢
    rw [List.filterMap_cons] at hR
    unfold Ok at hok
    unfold encodeP decodeP
    cases hx : x.active with
    | false =>
      rw [hx, if_neg (by decide)] at hok
      subst hok
      simp only [present, hx] at hR
      rw [if_neg (by decide), if_neg (by decide)]
      exact ⟨[], cw, cr, run_lift (Writes.pure s) cw, Reads.pure _ _, hR⟩
    | true =>
      rw [hx, if_pos rfl] at hok
      rw [if_pos rfl, if_pos rfl]
      cases ho : f.optional with
      | false =>
        rw [ho, if_neg (by decide)] at hok
        rw [if_neg (by decide), if_neg (by decide)]
        simp only [present, hx, ho] at hR
        exact hs cw cr x old v _ hok.1 hok.2 hR s
      | true =>
        rw [ho, if_pos rfl] at hok
        rw [if_pos rfl, if_pos rfl]
        rcases hok.2 with rfl | ⟨u, rfl, h⟩
        · simp only [present, hx, ho] at hR
          obtain ⟨out, a, b⟩ := bool_rt false s
          refine ⟨out, cw, cr, run_lift a cw, ?_, hR⟩
          have := b.bind (k := fun present => if present then do
              let (v, c) ← f.readValP ms x (f.zeroVal ms) cr
              pure (.some v, c)
            else pure (Val.none, cr)) (Reads.pure (Val.none, cr) _)
          rwa [List.append_nil] at this
        · simp only [present, hx, ho] at hR
          obtain ⟨o1, a1, b1⟩ := bool_rt true s
          obtain ⟨o2, cw', cr', a2, b2, hR'⟩ := hs cw cr x _ u _ hok.1 h hR (s ++ o1)
          refine ⟨o1 ++ o2, cw', cr', ?_, ?_, hR'⟩
          · dsimp only
            rw [run_seq_lift a1, a2, List.append_assoc]
          · rw [List.length_append] at b2
            exact b1.bind (Reads.map (f := fun r : Val × Ctx => (Val.some r.1, r.2)) b2)

/-- Fields that do not use their context. -/
theorem packsVal_plain (w : Exprs → Val → Wr Unit) (r : Exprs → Val → Rd Val)
    (hi : ∀ x v c, f.initVal ms x v c = (.ok (), c))
    (hw : ∀ x v, f.writeValP ms x v = WS.seq (WS.lift f.alignWr) (WS.lift (w x v)))
    (hr : ∀ x old c, f.readValP ms x old c = (do f.alignRd; let v ← r x old; pure (v, c)))
    (hrt : ∀ x old v, f.OkVal ms A x true old v → RoundTrip (w x v) (r x old) v) : f.PacksVal ms A := by
  refine ⟨fun _ _ => True, fun _ _ _ => True, fun _ _ => ⟨trivial, fun _ _ _ => trivial, fun _ => trivial⟩,
    fun c es x old v _ _ => ⟨c, hi x v c, trivial⟩, ?_⟩
  intro cw cr x old v es hal hok _ s
  obtain ⟨pad, _, p1, p2⟩ := align_rt f hal s
  obtain ⟨out, a, b⟩ := hrt x old v hok (s ++ pad)
  refine ⟨pad ++ out, cw, cr, ?_, ?_, trivial⟩
  · rw [hw, run_seq_lift p1, run_lift a, List.append_assoc]
  · rw [hr]
    rw [List.length_append] at b
    exact p2.bind (Reads.map (f := fun v => (v, cr)) b)

/-- Sizes and uint64 images alone, as traits. -/
def rawT : Traits (Nat × BitVec 64) where
  isConstant := false
  zero := (0, 0#64)
  bitSizeOf := Prod.fst
  read := pure (0, 0#64)
  write _ := pure ()
  asU64 := Prod.snd
  fromU64 u := (0, u)

theorem init_raw {T : Type} (tr : Traits T) (c : DCtx) (e : T) :
    DCtx.init tr c e = DCtx.init rawT c (tr.bitSizeOf e, tr.asU64 e) := rfl

theorem sync_new (us : List (BitVec 64)) : SyncU DCtx.new DCtx.new us :=
  Or.inl ⟨rfl, rfl, fun h => absurd h (by decide)⟩

theorem sync_raw (es : List (Nat × BitVec 64)) : SyncU (DCtx.initAll rawT es) DCtx.new (es.map Prod.snd) :=
  sync_init rawT es

/-- One element through a context node. -/
theorem delta_step {k : Elem} (hk : k.Wf) (hi : k.IntLike) {v : Val} (hv : k.OkV v) {dw dr : DCtx} {us : List (BitVec 64)}
    (kw kr : List Ctx) (h : SyncU dw dr (k.vt.asU64 v :: us)) (s : List Bool) :
    ∃ out dw' dr', WM.run (deltaWrite k.vt v (.node (some dw) kw)) s = ((.ok (), .node (some dw') kw), s ++ out) ∧
      Reads (deltaRead k.vt (.node (some dr) kr)) out s.length (v, .node (some dr') kr) ∧ SyncU dw' dr' us := by
  obtain ⟨out, dw', dr', a, b, c⟩ := sync_stepU (k.vt_rt hk) (k.vt_recover hk hi) hv h s
  refine ⟨out, dw', dr', ?_, ?_, c⟩
  · unfold deltaWrite
    rw [WM.run_bind, a]
    rfl
  · exact Reads.map (f := fun r : Val × DCtx => (r.1, Ctx.node (some r.2) kr)) b

theorem packsVal (H : Laws ms A) (f : Field) : f.PacksVal ms A := by
  cases ha : f.arr with
  | some packed =>
    refine packsVal_plain (w := fun x v => f.writeArr ms x true v) (r := fun x _ => f.readArr ms x true) ?_ ?_ ?_ ?_
    · intro x v c; unfold initVal; rw [ha]
    · intro x v; unfold writeValP; rw [ha]
    · intro x old c; unfold readValP; rw [ha]
    · intro x old v h
      unfold OkVal at h
      rw [ha] at h
      simp only [Bool.or_true] at h
      exact arr_rt H h
  | none =>
    cases ht : f.ty with
    | comp n =>
      obtain ⟨I, R, h0, hi, hs⟩ := (H n).2
      refine ⟨fun c es => I c (es.map Prod.snd), fun cw cr es => R cw cr (es.map Prod.snd), ?_, ?_, ?_⟩
      · intro c0 hc
        unfold create at hc
        rw [ha, ht] at hc
        obtain ⟨a, b, c⟩ := h0 c0 hc
        exact ⟨a, fun _ _ => b _ _, fun _ => c _⟩
      · intro c es x old v hI hok
        unfold OkVal at hok
        rw [ha, ht] at hok
        obtain ⟨c', a, b⟩ := hi c _ _ v hI hok.2
        refine ⟨c', ?_, by simpa using b⟩
        unfold initVal
        rw [ha, ht]
        dsimp only
        rw [hok.1]
        exact a
      · intro cw cr x old v es hal hok hR s
        unfold OkVal at hok
        rw [ha, ht] at hok
        obtain ⟨pad, _, p1, p2⟩ := align_rt f hal s
        obtain ⟨out, cw', cr', a, b, hR'⟩ := hs cw cr _ v _ hok.2 hR (s ++ pad)
        refine ⟨pad ++ out, cw', cr', ?_, ?_, hR'⟩
        · unfold writeValP
          rw [ha, ht, run_seq_lift p1]
          dsimp only
          rw [hok.1, a, List.append_assoc]
        · unfold readValP
          rw [ha, ht]
          rw [List.length_append] at b
          exact p2.bind b
    | prim k =>
      cases hd : k.isDelta with
      | false =>
        refine packsVal_plain (w := fun x v => (k.withWidth x.width).writeS ((k.withWidth x.width).val v))
          (r := fun x _ => do let v ← (k.withWidth x.width).readS; pure ((k.withWidth x.width).inj v)) ?_ ?_ ?_ ?_
        · intro x v c; unfold initVal; rw [ha, ht]; dsimp only; rw [hd, if_neg (by decide)]
        · intro x v; unfold writeValP; rw [ha, ht]; dsimp only; rw [hd, if_neg (by decide)]
        · intro x old c; unfold readValP; rw [ha, ht]; dsimp only; rw [hd, if_neg (by decide), bind_assoc]
          simp only [pure_bind]
        · intro x old v h
          unfold OkVal at h
          rw [ha, ht] at h
          exact Elem.scalarV_rt _ h.1 v h.2
      | true =>
        let img : Exprs × Val → Nat × BitVec 64 := fun e =>
          ((k.withWidth e.1.width).vt.bitSizeOf e.2, (k.withWidth e.1.width).vt.asU64 e.2)
        refine ⟨fun c es => ∃ kids, c = .node (some (DCtx.initAll rawT (es.map img))) kids,
          fun cw cr es => ∃ dw kw dr kr, cw = .node (some dw) kw ∧ cr = .node (some dr) kr ∧
            SyncU dw dr (es.map fun e => (img e).2), ?_, ?_, ?_⟩
        · intro c0 hc
          unfold create at hc
          rw [ha, ht] at hc
          dsimp only at hc
          rw [hd, if_pos rfl] at hc
          injection hc with hc
          subst hc
          refine ⟨⟨[], rfl⟩, ?_, fun es => ⟨_, _, _, _, rfl, rfl, sync_new _⟩⟩
          rintro c es ⟨kids, rfl⟩
          refine ⟨_, _, _, _, rfl, rfl, ?_⟩
          have := sync_raw (es.map img)
          rwa [List.map_map] at this
        · rintro c es x old v ⟨kids, rfl⟩ hok
          unfold initVal
          rw [ha, ht]
          dsimp only
          rw [hd, if_pos rfl]
          refine ⟨_, rfl, kids, ?_⟩
          rw [init_raw, List.map_append]
          unfold DCtx.initAll
          rw [List.foldl_append]
          rfl
        · rintro cw cr x old v es hal hok ⟨dw, kw, dr, kr, rfl, rfl, hS⟩ s
          unfold OkVal at hok
          rw [ha, ht] at hok
          obtain ⟨pad, _, p1, p2⟩ := align_rt f hal s
          have hint : (k.withWidth x.width).IntLike :=
            Elem.isDelta_intLike (by rw [Elem.isDelta_withWidth]; exact hd)
          obtain ⟨out, dw', dr', a, b, c⟩ := delta_step hok.1 hint hok.2 kw kr hS (s ++ pad)
          refine ⟨pad ++ out, _, _, ?_, ?_, ⟨dw', kw, dr', kr, rfl, rfl, c⟩⟩
          · unfold writeValP
            rw [ha, ht, run_seq_lift p1]
            dsimp only
            rw [hd, if_pos rfl, a, List.append_assoc]
          · unfold readValP
            rw [ha, ht]
            dsimp only
            rw [hd, if_pos rfl]
            rw [List.length_append] at b
            exact p2.bind b

theorem packs (H : Laws ms A) (f : Field) : f.Packs ms A := (packsVal H f).packs

end Field

end Verif
