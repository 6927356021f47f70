import Verif.Align
import Verif.Traits

/-!
# Arrays of builtin elements: /repo/ztype/array.go, array_encode.go, array_decode.go, packed_array_traits.go
-/

namespace Verif

/-- Sequences of a delta context user, as in /repo/ztype/delta_context_test.go: write the elements in order, stop at
the first error. -/
def DCtx.writeAll {T : Type} (tr : Traits T) : List T → WS DCtx
  | [], c => WM.pure (.ok (), c)
  | e :: es, c => WM.bind (DCtx.write tr e c) fun r =>
    match r with
    | (.error x, c) => WM.pure (.error x, c)
    | (.ok (), c) => DCtx.writeAll tr es c

/-- Read `n` elements in order. -/
def DCtx.readAll {T : Type} (tr : Traits T) : Nat → DCtx → Rd (List T)
  | 0, _ => pure []
  | n + 1, c => do
    let (e, c) ← DCtx.read tr c
    let es ← DCtx.readAll tr n c
    pure (e :: es)

/-- Sum of the sizes `BitSizeOf` reports for the elements in order. -/
def DCtx.sizeAll {T : Type} (tr : Traits T) : List T → DCtx → Nat
  | [], _ => 0
  | e :: es, c => (DCtx.bitSizeOf tr c e).1 + DCtx.sizeAll tr es (DCtx.bitSizeOf tr c e).2

/-- /repo/ztype/array.go:11-33 `Array`, without the elements and the packing context: the configuration.
`hasSet`/`hasCheck` say whether `setOffsetMethod`/`checkOffsetMethod` is set; both are callbacks supplied by the user
that only receive positions, their effect is not modelled.  `FixedSize` is a Go int, here non-negative. -/
structure ArrCfg where
  fixedSize : Nat
  isAuto : Bool
  isPacked : Bool
  hasSet : Bool
  hasCheck : Bool
  deriving DecidableEq, Repr

/-- `if array.checkOffsetMethod != nil { writer.Align(8) … }`, /repo/ztype/array_encode.go:32-38. -/
def offsetAlignW (on : Bool) : Wr Unit := if on then (do let _ ← alignW 8) else pure ()

/-- /repo/ztype/array_decode.go:36-42. -/
def offsetAlignR (on : Bool) : Rd Unit := if on then (do let _ ← alignR 8) else pure ()

namespace Arr
variable {T : Type}

/-- Loop /repo/ztype/array_encode.go:31-44 without packing; the error returned by `Write` on line 42 is dropped. -/
def plainLoop (tr : Traits T) (check : Bool) : List T → Wr Unit
  | [] => pure ()
  | e :: es => do
    offsetAlignW check
    Wr.dropErr (tr.write e)
    plainLoop tr check es

/-- Loop /repo/ztype/array_encode.go:31-44 with packing; `PackedArrayTraits.Write`
(/repo/ztype/packed_array_traits.go:54-56) drops the error of `DeltaContext.Write`. -/
def packedLoop (tr : Traits T) (check : Bool) : List T → WS DCtx
  | [], c => WM.pure (.ok (), c)
  | e :: es, c => WM.bind (ExceptT.run (offsetAlignW check)) fun r =>
    match r with
    | .error x => WM.pure (.error x, c)
    | .ok () => WM.bind (DCtx.write tr e c) fun r =>
      match r with
      | (.ok (), c) => packedLoop tr check es c
      | (.error x, c) => if x.isPanic then WM.pure (.error x, c) else packedLoop tr check es c

/-- The length in front of the elements, /repo/ztype/array_encode.go:10-15. -/
def header (cfg : ArrCfg) (n : Nat) : Wr Unit := if cfg.isAuto then writeVarsize (BitVec.ofNat 64 n) else pure ()

/-- /repo/ztype/array_encode.go:8-47 `Array.MarshalZserio`; the state is the `PackedContext` field. -/
def marshal (tr : Traits T) (cfg : ArrCfg) (es : List T) : WS (Option DCtx) := fun ctx =>
  WM.bind (ExceptT.run (header cfg es.length)) fun r =>
    match r with
    | .error x => WM.pure (.error x, ctx)
    | .ok () =>
      if es.isEmpty then WM.pure (.ok (), ctx)
      else if cfg.isPacked then
        WM.bind (packedLoop tr cfg.hasCheck es (DCtx.initAll tr es)) fun r => WM.pure (r.1, some r.2)
      else
        WM.bind (ExceptT.run (plainLoop tr cfg.hasCheck es)) fun r => WM.pure (r, ctx)

/-- `MarshalZserio` as a function of the writer alone (what it writes does not depend on the old `PackedContext`, see
`marshal_ctx`). -/
def marshalW (tr : Traits T) (cfg : ArrCfg) (es : List T) : Wr Unit :=
  ExceptT.mk <| WM.bind (marshal tr cfg es none) fun r => WM.pure r.1

/-- Loop /repo/ztype/array_decode.go:35-53 without packing. -/
def plainRead (tr : Traits T) (check : Bool) : Nat → Rd (List T)
  | 0 => pure []
  | n + 1 => do
    offsetAlignR check
    let e ← tr.read
    let es ← plainRead tr check n
    pure (e :: es)

/-- Loop /repo/ztype/array_decode.go:35-53 with packing. -/
def packedRead (tr : Traits T) (check : Bool) : Nat → DCtx → Rd (List T)
  | 0, _ => pure []
  | n + 1, c => do
    offsetAlignR check
    let (e, c) ← DCtx.read tr c
    let es ← packedRead tr check n c
    pure (e :: es)

/-- /repo/ztype/array_decode.go:8-56 `Array.UnmarshalZserio`: the elements it stores in `RawArray` on success. -/
def unmarshal (tr : Traits T) (cfg : ArrCfg) : Rd (List T) := do
  let size ← (if cfg.isAuto then do let n ← readVarsize; pure n.toNat else pure cfg.fixedSize)
  if cfg.isPacked then packedRead tr cfg.hasCheck size DCtx.new
  else plainRead tr cfg.hasCheck size

/-- Size of the length field as both size functions compute it, /repo/ztype/array.go:44-50 and 76-82. -/
def headerSize (cfg : ArrCfg) (n : Nat) : Except Err Nat :=
  if cfg.isAuto then signedBitSize (BitVec.ofNat 64 n) 4 else .ok 0

/-- Loop /repo/ztype/array.go:62-67. -/
def sizeLoop (tr : Traits T) (set : Bool) : List T → Int → Int
  | [], p => p
  | e :: es, p =>
    let p := if set then alignTo 8 p else p
    sizeLoop tr set es (p + tr.bitSizeOf e)

/-- /repo/ztype/array.go:41-70 `Array.ZserioBitSize`. -/
def bitSize (tr : Traits T) (cfg : ArrCfg) (es : List T) (pos : Int) : Except Err Int := do
  let h ← headerSize cfg es.length
  let p := pos + h
  let size : Int := es.length
  if tr.isConstant && decide (es.length > 0) then
    let elementSize : Int := tr.bitSizeOf tr.zero
    if cfg.hasSet then pure (p + size * elementSize - pos)
    else pure (alignTo 8 p + (elementSize + (size - 1) * alignTo 8 elementSize) - pos)
  else pure (sizeLoop tr cfg.hasSet es p - pos)

/-- Loop /repo/ztype/array.go:86-95. -/
def sizePackedLoop (tr : Traits T) (set : Bool) : List T → DCtx → Int → Int × DCtx
  | [], c, p => (p, c)
  | e :: es, c, p =>
    let p := if set then alignTo 8 p else p
    sizePackedLoop tr set es (DCtx.bitSizeOf tr c e).2 (p + (DCtx.bitSizeOf tr c e).1)

/-- /repo/ztype/array.go:73-98 `Array.ZserioBitSizePacked` on the current `PackedContext`, which it also updates; a nil
context is dereferenced. -/
def bitSizePacked (tr : Traits T) (cfg : ArrCfg) (es : List T) (ctx : Option DCtx) (pos : Int) :
    Except Err Int × Option DCtx :=
  match headerSize cfg es.length with
  | .error x => (.error x, ctx)
  | .ok h =>
    if es.isEmpty then (.ok h, ctx)
    else match ctx with
      | none => (.error (.panic "nil pointer dereference"), none)
      | some c =>
        let r := sizePackedLoop tr cfg.hasSet es c (pos + h)
        (.ok (r.1 - pos), some r.2)

end Arr

/-! ## Lemmas -/

section lemmas
variable {T : Type}

theorem offsetAlign_rt (on : Bool) (s : List Bool) : ∃ pad, (on = true → pad.length = padBits s.length 8) ∧
    (on = false → pad = []) ∧ Writes (offsetAlignW on) s pad ∧ Reads (offsetAlignR on) pad s.length () := by
  cases on with
  | false => exact ⟨[], by simp, fun _ => rfl, Writes.pure s, Reads.pure () _⟩
  | true =>
    refine ⟨List.replicate (padBits s.length 8) false, fun _ => List.length_replicate, by simp, ?_, ?_⟩
    · unfold Writes offsetAlignW
      rw [if_pos rfl, wrun_bind, wrun_alignW (by omega) (by omega)]
      rfl
    · intro rest
      unfold offsetAlignR
      rw [if_pos rfl, rrun_bind, rrun_alignR (by omega) (by omega) _ _ _ List.length_replicate]
      rfl

theorem Writes.dropErr {w : Wr Unit} {s out : List Bool} (h : Writes w s out) : Writes (Wr.dropErr w) s out := by
  unfold Writes at *
  rw [wrun_dropErr, h]

theorem plain_rt {tr : Traits T} {ok : T → Prop} (hrt : tr.RT ok) (check : Bool) (es : List T) (hok : ∀ e ∈ es, ok e) :
    RoundTrip (Arr.plainLoop tr check es) (Arr.plainRead tr check es.length) es := by
  induction es with
  | nil => exact fun s => ⟨[], Writes.pure s, Reads.pure [] _⟩
  | cons e es ih =>
    intro s
    obtain ⟨pad, _, _, p1, p2⟩ := offsetAlign_rt check s
    obtain ⟨o1, a1, a2⟩ := hrt e (hok e (by simp)) (s ++ pad)
    obtain ⟨o2, b1, b2⟩ := ih (fun x hx => hok x (by simp [hx])) (s ++ pad ++ o1)
    refine ⟨pad ++ (o1 ++ o2), p1.bind (a1.dropErr.bind b1), ?_⟩
    have e1 : s.length + pad.length = (s ++ pad).length := by simp
    have e2 : (s ++ pad).length + o1.length = (s ++ pad ++ o1).length := by simp [Nat.add_assoc]
    refine p2.bind ?_
    rw [e1]
    refine a2.bind ?_
    rw [e2]
    exact Reads.map (f := fun es => e :: es) b2

theorem packed_rt {tr : Traits T} {ok : T → Prop} (hrt : tr.RT ok) (hrec : tr.Recover ok) (check : Bool) (es : List T)
    (hok : ∀ e ∈ es, ok e) (cw cr : DCtx) (hs : Sync tr cw cr es) (s : List Bool) :
    ∃ out cw', WM.run (Arr.packedLoop tr check es cw) s = ((.ok (), cw'), s ++ out) ∧
      Reads (Arr.packedRead tr check es.length cr) out s.length es := by
  induction es generalizing cw cr s with
  | nil => exact ⟨[], cw, by simp [Arr.packedLoop, WM.run_pure], Reads.pure [] _⟩
  | cons e es ih =>
    obtain ⟨pad, _, _, p1, p2⟩ := offsetAlign_rt check s
    obtain ⟨o1, cw1, cr1, a1, a2, a3⟩ := sync_step hrt hrec (hok e (by simp)) hs (s ++ pad)
    obtain ⟨o2, cw2, b1, b2⟩ := ih (fun x hx => hok x (by simp [hx])) cw1 cr1 a3 (s ++ pad ++ o1)
    refine ⟨pad ++ (o1 ++ o2), cw2, ?_, ?_⟩
    · unfold Arr.packedLoop
      rw [WM.run_bind]
      unfold Writes wrun at p1
      rw [p1]
      dsimp only
      rw [WM.run_bind, a1]
      dsimp only
      rw [b1]
      simp
    · have e1 : s.length + pad.length = (s ++ pad).length := by simp
      have e2 : (s ++ pad).length + o1.length = (s ++ pad ++ o1).length := by simp [Nat.add_assoc]
      refine p2.bind ?_
      rw [e1]
      refine a2.bind ?_
      dsimp only
      rw [e2]
      exact Reads.map (f := fun es => e :: es) b2

theorem writeAll_eq_packedLoop {tr : Traits T} {ok : T → Prop} (hrt : tr.RT ok) (hrec : tr.Recover ok) (es : List T)
    (hok : ∀ e ∈ es, ok e) (cw cr : DCtx) (hs : Sync tr cw cr es) (s : List Bool) :
    ∃ out cw', WM.run (DCtx.writeAll tr es cw) s = ((.ok (), cw'), s ++ out) ∧
      Reads (DCtx.readAll tr es.length cr) out s.length es := by
  induction es generalizing cw cr s with
  | nil => exact ⟨[], cw, by simp [DCtx.writeAll, WM.run_pure], Reads.pure [] _⟩
  | cons e es ih =>
    obtain ⟨o1, cw1, cr1, a1, a2, a3⟩ := sync_step hrt hrec (hok e (by simp)) hs s
    obtain ⟨o2, cw2, b1, b2⟩ := ih (fun x hx => hok x (by simp [hx])) cw1 cr1 a3 (s ++ o1)
    refine ⟨o1 ++ o2, cw2, ?_, ?_⟩
    · unfold DCtx.writeAll
      rw [WM.run_bind, a1]
      dsimp only
      rw [b1]
      simp
    · have e2 : s.length + o1.length = (s ++ o1).length := by simp
      refine a2.bind ?_
      dsimp only
      rw [e2]
      exact Reads.map (f := fun es => e :: es) b2

/-- The written bits do not depend on an old packing context. -/
theorem marshal_ctx (tr : Traits T) (cfg : ArrCfg) (es : List T) (ctx : Option DCtx) (s : List Bool) :
    (WM.run (Arr.marshal tr cfg es ctx) s).1.1 = (wrun (Arr.marshalW tr cfg es) s).1 ∧
    (WM.run (Arr.marshal tr cfg es ctx) s).2 = (wrun (Arr.marshalW tr cfg es) s).2 := by
  unfold Arr.marshalW wrun
  show _ = (WM.run (WM.bind _ _) s).1 ∧ _ = (WM.run (WM.bind _ _) s).2
  rw [WM.run_bind]
  dsimp only [WM.run_pure]
  unfold Arr.marshal
  rw [WM.run_bind, WM.run_bind]
  generalize WM.run (ExceptT.run (Arr.header cfg es.length)) s = q
  obtain ⟨r, s'⟩ := q
  cases r with
  | error x => exact ⟨rfl, rfl⟩
  | ok u =>
    dsimp only
    by_cases he : es.isEmpty = true
    · rw [if_pos he, if_pos he]; exact ⟨rfl, rfl⟩
    · rw [if_neg he, if_neg he]
      by_cases hp : cfg.isPacked = true
      · rw [if_pos hp, if_pos hp]; exact ⟨rfl, rfl⟩
      · rw [if_neg hp, if_neg hp, WM.run_bind, WM.run_bind]; exact ⟨rfl, rfl⟩

/-! ### Sizes of delta packed sequences -/

/-- A context without the previous element. -/
def DCtx.strip (c : DCtx) : DCtx := { c with prev := none }

/-- The context used for computing sizes (`cs`) and the one used for writing (`cw`). -/
def SizeInv (cs cw : DCtx) : Prop :=
  cs.strip = cw.strip ∧ (cw.started = true → cw.prev.isSome = true) ∧
  (cw.isPacked = true → cw.maxBit ≤ 62)

theorem sizeInv_init (tr : Traits T) (es : List T) : SizeInv (DCtx.initAll tr es) (DCtx.initAll tr es) := by
  cases es with
  | nil => exact ⟨rfl, fun h => by simp [DCtx.initAll, DCtx.new] at h, fun h => by simp [DCtx.initAll, DCtx.new] at h⟩
  | cons e es =>
    obtain ⟨_, _, _, h4, h5, h6⟩ := initAll_spec tr e es
    refine ⟨rfl, fun h => by rw [h4] at h; simp at h, fun hp => ?_⟩
    by_cases hle : spread (tr.asU64 e).toNat (tr.images es) ≤ 62
    · rw [(h5 hle).1]; exact hle
    · rw [h6 (by omega)] at hp; simp at hp

theorem finishInit_prev (c : DCtx) : c.finishInit.strip = c.strip.finishInit := by
  rw [finishInit_eq, finishInit_eq]; rfl

theorem size_step {tr : Traits T} {ok : T → Prop} (hex : tr.Exact ok) {cs cw : DCtx} {e : T} (he : ok e)
    (h : SizeInv cs cw) (s : List Bool) :
    ∃ out cw', WM.run (DCtx.write tr e cw) s = ((.ok (), cw'), s ++ out) ∧
      out.length = (DCtx.bitSizeOf tr cs e).1 ∧ SizeInv (DCtx.bitSizeOf tr cs e).2 cw' := by
  obtain ⟨h1, h2, h3⟩ := h
  have hun : ∀ (c : DCtx) (s : List Bool), ∃ out, out.length = tr.bitSizeOf e ∧
      WM.run (DCtx.writeUnpacked tr e c) s = ((.ok (), { c with prev := some (tr.asU64 e) }), s ++ out) := by
    intro c s
    obtain ⟨out, hl, hw⟩ := hex e he s
    refine ⟨out, hl, ?_⟩
    unfold DCtx.writeUnpacked
    rw [WM.run_bind]
    unfold Writes wrun at hw
    rw [hw]; rfl
  have hst : cs.started = cw.started := by have := congrArg (fun c : DCtx => c.started) h1; exact this
  have hpk : cs.isPacked = cw.isPacked := by have := congrArg (fun c : DCtx => c.isPacked) h1; exact this
  have hmb : cs.maxBit = cw.maxBit := by have := congrArg (fun c : DCtx => c.maxBit) h1; exact this
  unfold DCtx.write DCtx.bitSizeOf
  by_cases hs : cw.started = true
  · rw [if_neg (c := (!cw.started) = true) (by simp [hs]), if_neg (c := (!cs.started) = true) (by simp [hst, hs])]
    rw [hpk]
    by_cases hp : cw.isPacked = true
    · rw [if_neg (c := (!cw.isPacked) = true) (by simp [hp]), if_neg (c := (!cw.isPacked) = true) (by simp [hp]), hmb]
      by_cases hm : cw.maxBit > 0
      · rw [if_pos hm, if_pos hm]
        obtain ⟨p, hpv⟩ := Option.isSome_iff_exists.mp (h2 hs)
        rw [hpv]
        dsimp only
        have := h3 hp
        refine ⟨natBits ((cw.maxBit + 1) % 256) (tr.asU64 e - p).toNat, { cw with prev := some (tr.asU64 e) }, ?_, ?_, ?_⟩
        · rw [WM.run_bind]; rfl
        · rw [natBits_length, Nat.mod_eq_of_lt (by omega)]
        · exact ⟨h1, fun _ => rfl, h3⟩
      · rw [if_neg hm, if_neg hm]
        exact ⟨[], cw, by simp [WM.run_pure], rfl, h1, h2, h3⟩
    · rw [if_pos (c := (!cw.isPacked) = true) (by simp [hp]), if_pos (c := (!cw.isPacked) = true) (by simp [hp])]
      obtain ⟨out, hl, hw⟩ := hun cw s
      exact ⟨out, _, hw, hl, h1, fun _ => rfl, h3⟩
  · rw [if_pos (c := (!cw.started) = true) (by simp [hs]), if_pos (c := (!cs.started) = true) (by simp [hst, hs])]
    dsimp only
    have hfin : ({ cs with started := true } : DCtx).finishInit.strip =
        ({ cw with started := true } : DCtx).finishInit.strip := by
      rw [finishInit_prev, finishInit_prev]
      congr 1
      have := congrArg (fun c : DCtx => { c with started := true }) h1
      exact this
    obtain ⟨f1, f2, f3, f4⟩ := finishInit_fields { cw with started := true }
    have hidem := finishInit_idem { cs with started := true }
    dsimp only at f1 f2 f3 f4
    generalize DCtx.finishInit { cw with started := true } = c at hfin f1 f2 f3 f4
    generalize DCtx.finishInit { cs with started := true } = c0 at hfin hidem
    have hpk' : c0.isPacked = c.isPacked := by
      have := congrArg (fun c : DCtx => c.isPacked) hfin; exact this
    unfold DCtx.bitSizeOfDescriptor
    dsimp only
    rw [hidem, hpk']
    have hdesc : ∃ d, d.length = (if c.isPacked then 1 + 6 else 1) ∧
        WM.run (ExceptT.run c.writeDescriptor) s = (.ok (), s ++ d) := by
      show ∃ d, _ ∧ wrun c.writeDescriptor s = (.ok (), s ++ d)
      unfold DCtx.writeDescriptor
      cases hp : c.isPacked with
      | false => exact ⟨[false], rfl, rfl⟩
      | true =>
        refine ⟨true :: natBits 6 (BitVec.ofNat 64 c.maxBit).toNat, by simp, ?_⟩
        rw [wrun_bind, wrun_bool]
        dsimp only
        rw [if_pos rfl, wrun_bits]
        simp
    obtain ⟨d, hd1, hd2⟩ := hdesc
    obtain ⟨out, hl, hw⟩ := hun c (s ++ d)
    refine ⟨d ++ out, { c with prev := some (tr.asU64 e) }, ?_, by rw [List.length_append, hd1, hl], ?_⟩
    · rw [WM.run_bind, hd2]
      dsimp only
      rw [hw]; simp
    · refine ⟨hfin, fun _ => rfl, ?_⟩
      intro hp
      show c.maxBit ≤ 62
      rw [f1]; exact h3 (f4 hp)

theorem size_all {tr : Traits T} {ok : T → Prop} (hex : tr.Exact ok) (es : List T) (hok : ∀ e ∈ es, ok e) (cs cw : DCtx)
    (h : SizeInv cs cw) (s : List Bool) :
    ∃ out cw', WM.run (DCtx.writeAll tr es cw) s = ((.ok (), cw'), s ++ out) ∧ out.length = DCtx.sizeAll tr es cs := by
  induction es generalizing cs cw s with
  | nil => exact ⟨[], cw, by simp [DCtx.writeAll, WM.run_pure], rfl⟩
  | cons e es ih =>
    obtain ⟨o1, cw1, a1, a2, a3⟩ := size_step hex (hok e (by simp)) h s
    obtain ⟨o2, cw2, b1, b2⟩ := ih (fun x hx => hok x (by simp [hx])) _ cw1 a3 (s ++ o1)
    refine ⟨o1 ++ o2, cw2, ?_, ?_⟩
    · unfold DCtx.writeAll
      rw [WM.run_bind, a1]
      dsimp only
      rw [b1]; simp
    · rw [List.length_append, a2, b2]; rfl

theorem sizeAll_started (tr : Traits T) (es : List T) (c : DCtx) (hs : c.started = true) :
    DCtx.sizeAll tr es c = if c.isPacked then es.length * (if c.maxBit > 0 then c.maxBit + 1 else 0)
      else (es.map tr.bitSizeOf).sum := by
  have step : ∀ e, DCtx.bitSizeOf tr c e =
      (if c.isPacked then (if c.maxBit > 0 then c.maxBit + 1 else 0) else tr.bitSizeOf e, c) := by
    intro e
    unfold DCtx.bitSizeOf
    rw [if_neg (c := (!c.started) = true) (by simp [hs])]
    cases c.isPacked with
    | false => rfl
    | true =>
      rw [if_neg (by decide), if_pos rfl]
      split <;> rfl
  induction es with
  | nil => cases c.isPacked <;> simp [DCtx.sizeAll]
  | cons e es ih =>
    unfold DCtx.sizeAll
    rw [step e]
    dsimp only
    rw [ih]
    cases c.isPacked with
    | false => simp
    | true => rw [if_pos rfl, if_pos rfl, if_pos rfl, List.length_cons, Nat.add_mul, Nat.one_mul, Nat.add_comm]

/-- Bits per delta for a spread: a sign bit on top, nothing at all when all elements are equal. -/
def deltaBits (spr : Nat) : Nat := if spr > 0 then spr + 1 else 0

/-- Is packing used for this sequence? -/
def PackingPays (tr : Traits T) (e : T) (es : List T) : Prop :=
  spread (tr.asU64 e).toNat (tr.images es) ≤ 62 ∧
  1 + 6 + tr.bitSizeOf e + es.length * deltaBits (spread (tr.asU64 e).toNat (tr.images es)) <
    1 + ((e :: es).map tr.bitSizeOf).sum

theorem finish_initAll (tr : Traits T) (e : T) (es : List T) :
    let c := ({ DCtx.initAll tr (e :: es) with started := true } : DCtx).finishInit
    c.started = true ∧ (c.isPacked = true ↔ PackingPays tr e es) ∧
    (c.isPacked = true → c.maxBit = spread (tr.asU64 e).toNat (tr.images es)) := by
  obtain ⟨h1, h2, h3, h4, h5, h6⟩ := initAll_spec tr e es
  dsimp only
  rw [finishInit_eq]
  dsimp only
  refine ⟨rfl, ?_, ?_⟩
  · rw [Bool.and_eq_true, decide_eq_true_iff, h1, h2, h3]
    unfold PackingPays
    by_cases hle : spread (tr.asU64 e).toNat (tr.images es) ≤ 62
    · obtain ⟨h7, h8⟩ := h5 hle
      rw [h8, h7]
      unfold deltaBits
      constructor
      · rintro ⟨_, hb⟩
        exact ⟨hle, by simpa using hb⟩
      · rintro ⟨_, hb⟩
        refine ⟨?_, by simpa using hb⟩
        rintro rfl
        simp at hb
    · rw [h6 (by omega)]
      constructor
      · rintro ⟨hb, _⟩; simp at hb
      · rintro ⟨hb, _⟩; exact absurd hb hle
  · intro hp
    rw [Bool.and_eq_true] at hp
    by_cases hle : spread (tr.asU64 e).toNat (tr.images es) ≤ 62
    · exact (h5 hle).1
    · rw [h6 (by omega)] at hp; simp at hp

open Classical in
theorem sizeAll_initAll (tr : Traits T) (e : T) (es : List T) :
    DCtx.sizeAll tr (e :: es) (DCtx.initAll tr (e :: es)) =
      if PackingPays tr e es then
        1 + 6 + tr.bitSizeOf e + es.length * deltaBits (spread (tr.asU64 e).toNat (tr.images es))
      else 1 + ((e :: es).map tr.bitSizeOf).sum := by
  obtain ⟨g1, g2, g3⟩ := finish_initAll tr e es
  obtain ⟨_, _, _, h4, _, _⟩ := initAll_spec tr e es
  have hb : DCtx.bitSizeOf tr (DCtx.initAll tr (e :: es)) e =
      ((if ({ DCtx.initAll tr (e :: es) with started := true } : DCtx).finishInit.isPacked then 1 + 6 else 1) +
        tr.bitSizeOf e, ({ DCtx.initAll tr (e :: es) with started := true } : DCtx).finishInit) := by
    unfold DCtx.bitSizeOf
    rw [if_pos (by rw [h4]; rfl)]
    unfold DCtx.bitSizeOfDescriptor
    dsimp only
    rw [finishInit_idem]
  unfold DCtx.sizeAll
  rw [hb]
  dsimp only at g1 g2 g3 ⊢
  generalize DCtx.finishInit _ = c at g1 g2 g3 ⊢
  rw [sizeAll_started tr es c g1]
  by_cases hp : PackingPays tr e es
  · rw [if_pos hp, if_pos (g2.mpr hp), if_pos (g2.mpr hp), g3 (g2.mpr hp)]
    rfl
  · have : c.isPacked = false := by
      rw [← Bool.not_eq_true]; exact fun h => hp (g2.mp h)
    rw [if_neg hp, this, if_neg (by decide), if_neg (by decide), List.map_cons, List.sum_cons]
    omega

end lemmas

end Verif
