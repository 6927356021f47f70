import Verif.Codec
import Mathlib.Data.Nat.Size

/-!
# Array traits interface and delta packing: /repo/ztype/array_traits.go, /repo/ztype/delta_context.go
-/

namespace Verif

/-- /repo/ztype/array_traits.go:12-49 `IArrayTraits[T]`.  The position argument of `BitSizeOf` and the index argument
of `Read` are ignored by all traits for builtin element types and are left out; so are `InitializeOffsets`,
`NeedsBitsizeOfPosition` and `NeedsReadIndex`, which no code path uses.  `zero` is Go's zero value of `T`. -/
structure Traits (T : Type) where
  isConstant : Bool
  zero : T
  bitSizeOf : T → Nat
  read : Rd T
  write : T → Wr Unit
  asU64 : T → BitVec 64
  fromU64 : BitVec 64 → T

/-- /repo/ztype/delta_context.go:16-30 `DeltaContext`. The Go ints are counters that only grow; they are naturals
here. -/
structure DCtx where
  prev : Option (BitVec 64)
  maxBit : Nat
  unpacked : Nat
  first : Nat
  num : Nat
  isPacked : Bool
  started : Bool
  deriving DecidableEq, Repr

/-- A new context is all zero: /repo/ztype/packing_context_node.go:10-14. -/
def DCtx.new : DCtx := ⟨none, 0, 0, 0, 0, false, false⟩

/-- /repo/ztype/delta_context.go:37-42 -/
def absDiff (lhs rhs : BitVec 64) : BitVec 64 := if lhs > rhs then lhs - rhs else rhs - lhs

/-- Writer code that updates a state of type `σ`, also when it fails. -/
abbrev WS (σ : Type) := σ → WM (Except Err Unit × σ)

namespace DCtx
variable {T : Type}

/-- /repo/ztype/delta_context.go:45-68 `Init`. -/
def init (tr : Traits T) (c : DCtx) (e : T) : DCtx :=
  let c := { c with num := c.num + 1, unpacked := c.unpacked + tr.bitSizeOf e }
  let c := match c.prev with
    | none => { c with first := c.unpacked }
    | some p =>
      if c.maxBit ≤ 62 then
        let m := Nat.size (absDiff (tr.asU64 e) p).toNat
        if m > c.maxBit then { c with isPacked := decide (m ≤ 62), maxBit := m }
        else { c with isPacked := true }
      else c
  { c with prev := some (tr.asU64 e) }

/-- /repo/ztype/delta_context.go:133-151 `finishInit`. -/
def finishInit (c : DCtx) : DCtx :=
  if c.isPacked then
    let deltaBits := if c.maxBit > 0 then c.maxBit + 1 else 0
    if 1 + 6 + c.first + (c.num - 1) * deltaBits ≥ 1 + c.unpacked then { c with isPacked := false } else c
  else c

/-- /repo/ztype/delta_context.go:154-160 `BitSizeOfDescriptor`, with the context it leaves behind. -/
def bitSizeOfDescriptor (c : DCtx) : Nat × DCtx :=
  let c := c.finishInit
  (if c.isPacked then 1 + 6 else 1, c)

/-- /repo/ztype/delta_context.go:71-84 `BitSizeOf`, with the context it leaves behind. -/
def bitSizeOf (tr : Traits T) (c : DCtx) (e : T) : Nat × DCtx :=
  if !c.started then
    let c := { c with started := true }.finishInit
    let (n, c) := c.bitSizeOfDescriptor
    (n + tr.bitSizeOf e, c)
  else if !c.isPacked then (tr.bitSizeOf e, c)
  else if c.maxBit > 0 then (c.maxBit + 1, c)
  else (0, c)

/-- /repo/ztype/delta_context.go:193-201 `WriteDescriptor`. -/
def writeDescriptor (c : DCtx) : Wr Unit := do
  Wr.bool c.isPacked
  if c.isPacked then Wr.bits (BitVec.ofNat 64 c.maxBit) 6 else pure ()

/-- /repo/ztype/delta_context.go:204-211 `writeUnpacked`. -/
def writeUnpacked (tr : Traits T) (e : T) : WS DCtx := fun c =>
  WM.bind (ExceptT.run (tr.write e)) fun r => WM.pure (r, { c with prev := some (tr.asU64 e) })

/-- /repo/ztype/delta_context.go:108-129 `Write`.  Dereferencing a nil `previousElement` panics. -/
def write (tr : Traits T) (e : T) : WS DCtx := fun c =>
  if !c.started then
    let c := { c with started := true }.finishInit
    WM.bind (ExceptT.run c.writeDescriptor) fun r =>
      match r with
      | .error x => WM.pure (.error x, c)
      | .ok () => writeUnpacked tr e c
  else if !c.isPacked then writeUnpacked tr e c
  else if c.maxBit > 0 then
    match c.prev with
    | none => WM.pure (.error (.panic "nil pointer dereference"), c)
    | some p =>
      WM.bind (ExceptT.run (Wr.bits (tr.asU64 e - p) ((c.maxBit + 1) % 256))) fun r =>
        match r with
        | .error x => WM.pure (.error x, c)
        | .ok () => WM.pure (.ok (), { c with prev := some (tr.asU64 e) })
  else WM.pure (.ok (), c)

/-- /repo/ztype/delta_context.go:163-175 `ReadDescriptor` as used on line 90, where the returned error is dropped.
Both interface calls return zero values together with an error. -/
def readDescriptorDropped (c : DCtx) : Rd DCtx := do
  let p ← Rd.dropErr false Rd.bool
  if p then do
    let m ← Rd.dropErr 0#64 (Rd.bits 6)
    pure { c with isPacked := true, maxBit := m.toNat }
  else pure { c with isPacked := false }

/-- /repo/ztype/delta_context.go:178-190 `readUnpacked`. -/
def readUnpacked (tr : Traits T) (c : DCtx) : Rd (T × DCtx) := do
  let e ← tr.read
  pure (e, { c with prev := some (tr.asU64 e) })

/-- /repo/ztype/delta_context.go:87-105 `Read`.  After an error the context is not used any more, so only the
successful outcome carries one. -/
def read (tr : Traits T) (c : DCtx) : Rd (T × DCtx) :=
  if !c.started then do
    let c ← readDescriptorDropped { c with started := true }
    readUnpacked tr c
  else if !c.isPacked then readUnpacked tr c
  else do
    let c ←
      if c.maxBit > 0 then do
        let delta ← readSignedBits ((c.maxBit + 1) % 256)
        match c.prev with
        | none => throw (.panic "nil pointer dereference")
        | some p => pure { c with prev := some (p + delta) }
      else pure c
    match c.prev with
    | none => throw (.panic "nil pointer dereference")
    | some p => pure (tr.fromU64 p, c)

end DCtx

/-! ## Laws of traits -/

/-- Elements satisfying `ok` survive writing and reading. -/
def Traits.RT {T : Type} (tr : Traits T) (ok : T → Prop) : Prop := ∀ e, ok e → RoundTrip (tr.write e) tr.read e

/-- Elements satisfying `ok` can be recovered from their uint64 image. -/
def Traits.Recover {T : Type} (tr : Traits T) (ok : T → Prop) : Prop := ∀ e, ok e → tr.fromU64 (tr.asU64 e) = e

/-- `BitSizeOf` is the number of bits `Write` appends. -/
def Traits.Exact {T : Type} (tr : Traits T) (ok : T → Prop) : Prop :=
  ∀ e, ok e → ∀ s, ∃ out, out.length = tr.bitSizeOf e ∧ Writes (tr.write e) s out

/-! ## Specification of the chosen delta width -/

/-- Distance of two numbers. -/
def dist (a b : Nat) : Nat := (a - b) + (b - a)

/-- The number of bits needed for the largest distance between neighbours of the sequence `p, xs…`. -/
def spread : Nat → List Nat → Nat
  | _, [] => 0
  | p, x :: xs => max (Nat.size (dist x p)) (spread x xs)

theorem absDiff_toNat (a b : BitVec 64) : (absDiff a b).toNat = dist a.toNat b.toNat := by
  unfold absDiff dist
  have := a.isLt; have := b.isLt
  split
  · rename_i h
    rw [gt_iff_lt, BitVec.lt_def] at h
    rw [BitVec.toNat_sub]; omega
  · rename_i h
    rw [gt_iff_lt, BitVec.lt_def] at h
    rw [BitVec.toNat_sub]; omega

/-- `uint64` images of a list of elements. -/
def Traits.images {T : Type} (tr : Traits T) (es : List T) : List Nat := es.map fun e => (tr.asU64 e).toNat

section init
variable {T : Type} (tr : Traits T)

/-- Effect of initialising with further elements. -/
theorem init_foldl (es : List T) (c : DCtx) (p : BitVec 64) (hp : c.prev = some p)
    (hc : c.maxBit > 62 → c.isPacked = false) :
    let c' := es.foldl (DCtx.init tr) c
    c'.num = c.num + es.length ∧ c'.unpacked = c.unpacked + (es.map tr.bitSizeOf).sum ∧ c'.first = c.first ∧
    c'.started = c.started ∧
    (max c.maxBit (spread p.toNat (tr.images es)) ≤ 62 →
      c'.maxBit = max c.maxBit (spread p.toNat (tr.images es)) ∧ (c'.isPacked = true ↔ c.isPacked = true ∨ es ≠ [])) ∧
    (62 < max c.maxBit (spread p.toNat (tr.images es)) → c'.isPacked = false ∧ 62 < c'.maxBit) := by
  induction es generalizing c p with
  | nil =>
    simp only [List.foldl_nil, Traits.images, List.map_nil, spread, List.length_nil, List.sum_nil]
    refine ⟨rfl, rfl, trivial, trivial, fun _ => ⟨by simp, by simp⟩, fun h => ?_⟩
    have : 62 < c.maxBit := by simpa using h
    exact ⟨hc this, this⟩
  | cons e es ih =>
    intro c'
    have hstep : ∃ c1, DCtx.init tr c e = c1 ∧ c1.prev = some (tr.asU64 e) ∧ c1.num = c.num + 1 ∧
        c1.unpacked = c.unpacked + tr.bitSizeOf e ∧ c1.first = c.first ∧ c1.started = c.started ∧
        (c.maxBit ≤ 62 → c1.maxBit = max c.maxBit (Nat.size (dist (tr.asU64 e).toNat p.toNat)) ∧
          (c1.isPacked = true ↔ c1.maxBit ≤ 62)) ∧
        (62 < c.maxBit → c1.maxBit = c.maxBit ∧ c1.isPacked = c.isPacked) := by
      rw [← absDiff_toNat]
      refine ⟨_, rfl, ?_⟩
      unfold DCtx.init
      dsimp only
      rw [hp]
      dsimp only
      by_cases h62 : c.maxBit ≤ 62
      · rw [if_pos h62]
        by_cases hm : Nat.size (absDiff (tr.asU64 e) p).toNat > c.maxBit
        · rw [if_pos hm]
          exact ⟨rfl, rfl, rfl, rfl, rfl, fun _ => ⟨by simp; omega, by simp⟩, fun h => by omega⟩
        · rw [if_neg hm]
          exact ⟨rfl, rfl, rfl, rfl, rfl, fun _ => ⟨by simp; omega, by simp [h62]⟩, fun h => by omega⟩
      · rw [if_neg h62]
        exact ⟨rfl, rfl, rfl, rfl, rfl, fun h => absurd h h62, fun _ => ⟨rfl, rfl⟩⟩
    obtain ⟨c1, h0, h1, h2, h3, h4, h5, h6, h7⟩ := hstep
    have hc1 : c1.maxBit > 62 → c1.isPacked = false := by
      intro h
      by_cases h62 : c.maxBit ≤ 62
      · have := (h6 h62).2
        rw [← Bool.not_eq_true, this]; omega
      · obtain ⟨a, b⟩ := h7 (by omega)
        rw [b]; exact hc (by omega)
    have key := ih c1 (tr.asU64 e) h1 hc1
    have hcdef : c' = es.foldl (DCtx.init tr) c1 := by show List.foldl _ _ _ = _; rw [List.foldl_cons, h0]
    rw [hcdef]
    dsimp only at key
    obtain ⟨k1, k2, k3, k4, k5, k6⟩ := key
    have hsp : spread p.toNat (tr.images (e :: es)) =
        max (Nat.size (dist (tr.asU64 e).toNat p.toNat)) (spread (tr.asU64 e).toNat (tr.images es)) := rfl
    rw [hsp]
    refine ⟨?_, ?_, ?_, ?_, ?_, ?_⟩
    · rw [k1, h2, List.length_cons]; omega
    · rw [k2, h3, List.map_cons, List.sum_cons]; omega
    · rw [k3, h4]
    · rw [k4, h5]
    · intro h
      have hle : c.maxBit ≤ 62 := by omega
      obtain ⟨a, b⟩ := h6 hle
      obtain ⟨k51, k52⟩ := k5 (by rw [a]; omega)
      refine ⟨by rw [k51, a]; omega, ?_⟩
      rw [k52, b]
      simp only [ne_eq, reduceCtorEq, not_false_eq_true, or_true, iff_true]
      left; rw [a]; omega
    · intro h
      apply k6
      by_cases hle : c.maxBit ≤ 62
      · rw [(h6 hle).1]; omega
      · rw [(h7 (by omega)).1]; omega

/-- The context after `Init` has seen all elements. -/
def DCtx.initAll (es : List T) : DCtx := es.foldl (DCtx.init tr) DCtx.new

theorem initAll_spec (e : T) (es : List T) :
    let c := DCtx.initAll tr (e :: es)
    c.num = es.length + 1 ∧ c.unpacked = ((e :: es).map tr.bitSizeOf).sum ∧ c.first = tr.bitSizeOf e ∧
    c.started = false ∧
    (spread (tr.asU64 e).toNat (tr.images es) ≤ 62 →
      c.maxBit = spread (tr.asU64 e).toNat (tr.images es) ∧ (c.isPacked = true ↔ es ≠ [])) ∧
    (62 < spread (tr.asU64 e).toNat (tr.images es) → c.isPacked = false) := by
  have h := init_foldl tr es (DCtx.init tr DCtx.new e) (tr.asU64 e) rfl (fun h => absurd h (by simp [DCtx.init, DCtx.new]))
  intro c
  have hc : c = es.foldl (DCtx.init tr) (DCtx.init tr DCtx.new e) := rfl
  rw [hc]
  dsimp only at h
  obtain ⟨h1, h2, h3, h4, h5, h6⟩ := h
  have e0 : (DCtx.init tr DCtx.new e).maxBit = 0 := rfl
  rw [e0] at h5 h6
  simp only [Nat.zero_max] at h5 h6
  refine ⟨by rw [h1]; show 0 + 1 + _ = _; omega, ?_, ?_, h4, ?_, fun h => (h6 h).1⟩
  · rw [h2, List.map_cons, List.sum_cons]; show 0 + _ + _ = _; omega
  · rw [h3]; show 0 + _ = _; omega
  · intro h
    obtain ⟨a, b⟩ := h5 h
    refine ⟨a, ?_⟩
    rw [b]
    simp [DCtx.init, DCtx.new]

end init

/-! ## Writer and reader in step -/

/-- All neighbours in `p, xs…` are closer than `2^m`. -/
def Chain (m : Nat) : Nat → List Nat → Prop
  | _, [] => True
  | p, x :: xs => dist x p < 2 ^ m ∧ Chain m x xs

theorem chain_of_spread {m p : Nat} {xs : List Nat} (h : spread p xs ≤ m) : Chain m p xs := by
  induction xs generalizing p with
  | nil => trivial
  | cons x xs ih =>
    unfold spread at h
    have h1 : Nat.size (dist x p) ≤ m := by omega
    exact ⟨Nat.size_le.mp h1, ih (by omega)⟩

theorem finishInit_eq (c : DCtx) : c.finishInit = { c with isPacked := (c.isPacked &&
    decide (7 + c.first + (c.num - 1) * (if c.maxBit > 0 then c.maxBit + 1 else 0) < 1 + c.unpacked)) } := by
  unfold DCtx.finishInit
  dsimp only
  cases h : c.isPacked with
  | false => rw [if_neg (by decide), Bool.false_and, ← h]
  | true =>
    rw [if_pos rfl, Bool.true_and]
    by_cases hc : 1 + 6 + c.first + (c.num - 1) * (if c.maxBit > 0 then c.maxBit + 1 else 0) ≥ 1 + c.unpacked
    · rw [if_pos hc, decide_eq_false (by omega)]
    · rw [if_neg hc, decide_eq_true (by omega), ← h]

theorem finishInit_fields (c : DCtx) : c.finishInit.maxBit = c.maxBit ∧ c.finishInit.prev = c.prev ∧
    c.finishInit.started = c.started ∧ (c.finishInit.isPacked = true → c.isPacked = true) := by
  rw [finishInit_eq]
  exact ⟨rfl, rfl, rfl, fun h => (Bool.and_eq_true _ _ ▸ h).1⟩

theorem finishInit_idem (c : DCtx) : c.finishInit.finishInit = c.finishInit := by
  rw [finishInit_eq c, finishInit_eq]
  simp

/-- The relation between the writer's and the reader's context when elements with the uint64 images `us` are still to
be transmitted. -/
def SyncU (cw cr : DCtx) (us : List (BitVec 64)) : Prop :=
  (cw.started = false ∧ cr = DCtx.new ∧ (cw.isPacked = true → cw.maxBit ≤ 62 ∧
      ∀ u us', us = u :: us' → Chain cw.maxBit u.toNat (us'.map BitVec.toNat))) ∨
  (cw.started = true ∧ cr.started = true ∧ cw.isPacked = cr.isPacked ∧ (cw.isPacked = true →
      cw.maxBit = cr.maxBit ∧ cw.maxBit ≤ 62 ∧
      ∃ p, cw.prev = some p ∧ cr.prev = some p ∧ Chain cw.maxBit p.toNat (us.map BitVec.toNat)))

/-- The same for the elements of one traits. -/
def Sync {T : Type} (tr : Traits T) (cw cr : DCtx) (rest : List T) : Prop := SyncU cw cr (rest.map tr.asU64)

theorem sync_init {T : Type} (tr : Traits T) (es : List T) : Sync tr (DCtx.initAll tr es) DCtx.new es := by
  left
  cases es with
  | nil => exact ⟨rfl, rfl, fun h => by simp [DCtx.initAll, DCtx.new] at h⟩
  | cons e es =>
    obtain ⟨_, _, _, h4, h5, h6⟩ := initAll_spec tr e es
    refine ⟨h4, rfl, fun hp => ?_⟩
    have hle : spread (tr.asU64 e).toNat (tr.images es) ≤ 62 := by
      by_contra hc
      rw [h6 (by omega)] at hp
      simp at hp
    obtain ⟨h7, _⟩ := h5 hle
    rw [h7]
    refine ⟨hle, fun u us' heq => ?_⟩
    obtain ⟨rfl, rfl⟩ := List.cons.inj heq
    rw [List.map_map]
    exact chain_of_spread (Nat.le_refl _)

theorem delta_fits {x p : BitVec 64} {m : Nat} (hm : m ≤ 62) (h : dist x.toNat p.toNat < 2 ^ m) :
    SignedFits (x - p).toInt (m + 1) := by
  unfold SignedFits
  simp only [Nat.add_sub_cancel]
  have hx := x.isLt
  have hp := p.isLt
  have hpow : 2 ^ m ≤ 2 ^ 62 := Nat.pow_le_pow_right (by omega) hm
  have hcast : (2 : Int) ^ m = ((2 ^ m : Nat) : Int) := by norm_cast
  rw [hcast]
  generalize 2 ^ m = q at *
  unfold dist at h
  rw [BitVec.toInt_eq_toNat_cond, BitVec.toNat_sub]
  split <;> omega

theorem WM.run_pure {α : Type} (a : α) (s : List Bool) : (WM.pure a).run s = (a, s) := rfl

/-- One element: what the writer appends makes the reader return the element, and both stay in step. -/
theorem sync_stepU {T : Type} {tr : Traits T} {ok : T → Prop} (hrt : tr.RT ok) (hrec : tr.Recover ok) {cw cr : DCtx}
    {e : T} {us : List (BitVec 64)} (he : ok e) (h : SyncU cw cr (tr.asU64 e :: us)) (s : List Bool) :
    ∃ out cw' cr', WM.run (DCtx.write tr e cw) s = ((.ok (), cw'), s ++ out) ∧
      Reads (DCtx.read tr cr) out s.length (e, cr') ∧ SyncU cw' cr' us := by
  have hun : ∀ (cw : DCtx) (s : List Bool), ∃ out,
      WM.run (DCtx.writeUnpacked tr e cw) s = ((.ok (), { cw with prev := some (tr.asU64 e) }), s ++ out) ∧
      ∀ cr : DCtx, Reads (DCtx.readUnpacked tr cr) out s.length (e, { cr with prev := some (tr.asU64 e) }) := by
    intro cw s
    obtain ⟨out, h1, h2⟩ := hrt e he s
    refine ⟨out, ?_, fun cr => ?_⟩
    · unfold DCtx.writeUnpacked
      rw [WM.run_bind]
      unfold Writes wrun at h1
      rw [h1]; rfl
    · exact Reads.map (f := fun e' => (e', { cr with prev := some (tr.asU64 e') })) h2
  rcases h with ⟨h1, h2, h3⟩ | ⟨h1, h2, h3, h4⟩
  · -- first element
    subst h2
    unfold DCtx.write DCtx.read
    rw [if_pos (c := (!cw.started) = true) (by simp [h1]), if_pos (c := (!DCtx.new.started) = true) rfl]
    dsimp only
    obtain ⟨f1, f2, f3, f4⟩ := finishInit_fields { cw with started := true }
    dsimp only at f1 f2 f3 f4
    have f3' : (DCtx.finishInit { cw with started := true }).started = true := f3
    generalize DCtx.finishInit { cw with started := true } = c at f1 f2 f3' f4
    cases hpk : c.isPacked with
    | false =>
      obtain ⟨out, g1, g2⟩ := hun c (s ++ [false])
      refine ⟨false :: out, { c with prev := some (tr.asU64 e) },
        { { { DCtx.new with started := true } with isPacked := false } with prev := some (tr.asU64 e) }, ?_, ?_, ?_⟩
      · rw [WM.run_bind]
        have hd : WM.run (ExceptT.run c.writeDescriptor) s = (.ok (), s ++ [false]) := by
          unfold DCtx.writeDescriptor
          rw [hpk]
          rfl
        rw [hd]
        dsimp only
        rw [g1]
        simp
      · have hdesc : Reads (DCtx.readDescriptorDropped { DCtx.new with started := true }) [false] s.length
            { { DCtx.new with started := true } with isPacked := false } := by
          intro rest
          unfold DCtx.readDescriptorDropped
          rw [rrun_bind, rrun_dropErr, List.singleton_append, rrun_bool_cons]
          rfl
        have := hdesc.bind (k := fun c => DCtx.readUnpacked tr c) (b := out)
          (by have := g2 { { DCtx.new with started := true } with isPacked := false }
              rwa [List.length_append] at this)
        exact this
      · right
        exact ⟨f3', rfl, hpk, fun h => by rw [hpk] at h; simp at h⟩
    | true =>
      obtain ⟨hm, hch⟩ := h3 (f4 hpk)
      rw [← f1] at hm hch
      obtain ⟨out, g1, g2⟩ := hun c (s ++ (true :: natBits 6 c.maxBit))
      refine ⟨(true :: natBits 6 c.maxBit) ++ out, { c with prev := some (tr.asU64 e) },
        { { { DCtx.new with started := true } with isPacked := true, maxBit := c.maxBit } with prev := some (tr.asU64 e) },
        ?_, ?_, ?_⟩
      · rw [WM.run_bind]
        have hd : WM.run (ExceptT.run c.writeDescriptor) s = (.ok (), s ++ (true :: natBits 6 c.maxBit)) := by
          have : wrun c.writeDescriptor s = (.ok (), s ++ (true :: natBits 6 c.maxBit)) := by
            unfold DCtx.writeDescriptor
            rw [hpk, wrun_bind, wrun_bool]
            dsimp only
            rw [if_pos rfl, wrun_bits]
            rw [BitVec.toNat_ofNat, Nat.mod_eq_of_lt (by omega)]
            simp
          exact this
        rw [hd]
        dsimp only
        rw [g1]
        simp
      · have hdesc : Reads (DCtx.readDescriptorDropped { DCtx.new with started := true }) (true :: natBits 6 c.maxBit)
            s.length { { DCtx.new with started := true } with isPacked := true, maxBit := c.maxBit } := by
          intro rest
          unfold DCtx.readDescriptorDropped
          rw [rrun_bind, rrun_dropErr, List.cons_append, rrun_bool_cons]
          dsimp only
          rw [if_pos rfl, rrun_bind, rrun_dropErr, rrun_bits_append 6 _ _ _ (natBits_length _ _)]
          dsimp only
          rw [bitsVal_natBits_of_lt (by omega), rrun_pure, BitVec.toNat_ofNat, Nat.mod_eq_of_lt (by omega)]
          simp [Nat.add_assoc]
        have := hdesc.bind (k := fun c => DCtx.readUnpacked tr c) (b := out)
          (by have := g2 { { DCtx.new with started := true } with isPacked := true, maxBit := c.maxBit }
              rwa [List.length_append] at this)
        exact this
      · right
        exact ⟨f3', rfl, hpk, fun _ => ⟨rfl, hm, tr.asU64 e, rfl, rfl, hch _ us rfl⟩⟩
  · -- later element
    unfold DCtx.write DCtx.read
    rw [if_neg (c := (!cw.started) = true) (by simp [h1]), if_neg (c := (!cr.started) = true) (by simp [h2])]
    cases hpk : cw.isPacked with
    | false =>
      rw [if_pos (c := (!false) = true) rfl, if_pos (c := (!cr.isPacked) = true) (by rw [← h3, hpk]; rfl)]
      obtain ⟨out, g1, g2⟩ := hun cw s
      exact ⟨out, _, _, g1, g2 cr, Or.inr ⟨h1, h2, h3, fun h => by dsimp only at h; rw [hpk] at h; simp at h⟩⟩
    | true =>
      rw [if_neg (c := (!true) = true) (by decide), if_neg (c := (!cr.isPacked) = true) (by rw [← h3, hpk]; decide)]
      obtain ⟨hmeq, hm, p, hpw, hpr, hchain⟩ := h4 hpk
      obtain ⟨hd, hch⟩ := hchain
      by_cases hpos : cw.maxBit > 0
      · rw [if_pos hpos, if_pos (c := cr.maxBit > 0) (by omega), hpw]
        dsimp only
        have hmod : (cw.maxBit + 1) % 256 = cw.maxBit + 1 := Nat.mod_eq_of_lt (by omega)
        rw [← hmeq, hmod]
        refine ⟨natBits (cw.maxBit + 1) (tr.asU64 e - p).toNat, { cw with prev := some (tr.asU64 e) },
          { cr with prev := some (tr.asU64 e) }, ?_, ?_, ?_⟩
        · rw [WM.run_bind, hpk]
          rfl
        · have hsum : p + (tr.asU64 e - p) = tr.asU64 e := by
            rw [BitVec.add_comm, BitVec.sub_add_cancel]
          have hr := readSignedBits_reads (by omega) (by omega) (delta_fits hm hd) s.length
          intro rest
          rw [rrun_bind, hr rest]
          dsimp only
          rw [hpr]
          dsimp only
          rw [rrun_bind, rrun_pure]
          dsimp only
          rw [rrun_pure, hsum, hrec e he, hmeq]
        · right
          exact ⟨h1, h2, h3, fun _ => ⟨hmeq, hm, tr.asU64 e, rfl, rfl, hch⟩⟩
      · have hz : cw.maxBit = 0 := by omega
        rw [if_neg hpos, if_neg (c := cr.maxBit > 0) (by omega)]
        have hpe : p = tr.asU64 e := by
          rw [hz] at hd
          unfold dist at hd
          apply BitVec.eq_of_toNat_eq
          omega
        refine ⟨[], cw, cr, by simp [WM.run_pure], ?_, ?_⟩
        · intro rest
          rw [rrun_bind, rrun_pure]
          dsimp only
          rw [hpr]
          dsimp only
          rw [rrun_pure, hpe, hrec e he]
          simp
        · right
          refine ⟨h1, h2, h3, fun _ => ⟨hmeq, hm, p, hpw, hpr, ?_⟩⟩
          rw [hpe]; exact hch

theorem sync_step {T : Type} {tr : Traits T} {ok : T → Prop} (hrt : tr.RT ok) (hrec : tr.Recover ok) {cw cr : DCtx}
    {e : T} {es : List T} (he : ok e) (h : Sync tr cw cr (e :: es)) (s : List Bool) :
    ∃ out cw' cr', WM.run (DCtx.write tr e cw) s = ((.ok (), cw'), s ++ out) ∧
      Reads (DCtx.read tr cr) out s.length (e, cr') ∧ Sync tr cw' cr' es := sync_stepU hrt hrec he h s

end Verif
