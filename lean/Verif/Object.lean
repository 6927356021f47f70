import Verif.Elem

/-!
# Objects and arrays of objects

/repo/iface.go, /repo/packing_context_node.go, /repo/ztype/object_array.go, object_array_encode.go,
object_array_decode.go, object_array_traits.go.
-/

namespace Verif

/-- Go values of generated types.  `bits` is an integer of any width or the bit pattern of a float, `none`/`some` a
pointer to an optional field, `list` a slice, `obj` a generated struct, choice or union with its type parameters
and fields; `tag` is the `UnionChoice` of a union (0 otherwise). -/
inductive Val where
  | bits (w : Nat) (v : BitVec w)
  | bool (b : Bool)
  | str (s : List Byte)
  | bytes (b : Option BytesV)
  | extern (e : Option ExternV)
  | none
  | some (v : Val)
  | list (vs : List Val)
  | obj (tag : Nat) (params fields : List Val)

mutual
/-- Equality test, for running examples. -/
def Val.beq : Val → Val → Bool
  | .bits w v, .bits w' v' => if h : w = w' then decide (h ▸ v = v') else false
  | .bool b, .bool b' => b == b'
  | .str s, .str s' => decide (s = s')
  | .none, .none => true
  | .some v, .some v' => v.beq v'
  | .list vs, .list vs' => Val.beqs vs vs'
  | .obj t ps fs, .obj t' ps' fs' => t == t' && Val.beqs ps ps' && Val.beqs fs fs'
  | _, _ => false
def Val.beqs : List Val → List Val → Bool
  | [], [] => true
  | v :: vs, v' :: vs' => v.beq v' && Val.beqs vs vs'
  | _, _ => false
end
mutual
theorem Val.eq_of_beq : ∀ {a b : Val}, a.beq b = true → a = b
  | .bits w v, b, h => by
    cases b <;> simp only [Val.beq, Bool.false_eq_true] at h
    rename_i w' v'
    by_cases e : w = w'
    · subst e; simpa using h
    · simp [e] at h
  | .bool _, b, h => by cases b <;> simp_all [Val.beq]
  | .str _, b, h => by cases b <;> simp_all [Val.beq]
  | .bytes _, b, h => by cases b <;> simp_all [Val.beq]
  | .extern _, b, h => by cases b <;> simp_all [Val.beq]
  | .none, b, h => by cases b <;> simp_all [Val.beq]
  | .some v, b, h => by
    cases b <;> simp only [Val.beq, Bool.false_eq_true] at h
    rw [Val.eq_of_beq h]
  | .list vs, b, h => by
    cases b <;> simp only [Val.beq, Bool.false_eq_true] at h
    rw [Val.eq_of_beqs h]
  | .obj t ps fs, b, h => by
    cases b <;> simp only [Val.beq, Bool.false_eq_true, Bool.and_eq_true, beq_iff_eq] at h
    rw [h.1.1, Val.eq_of_beqs h.1.2, Val.eq_of_beqs h.2]
theorem Val.eq_of_beqs : ∀ {a b : List Val}, Val.beqs a b = true → a = b
  | [], b, h => by cases b <;> simp_all [Val.beqs]
  | v :: vs, b, h => by
    cases b <;> simp only [Val.beqs, Bool.false_eq_true, Bool.and_eq_true] at h
    rw [Val.eq_of_beq h.1, Val.eq_of_beqs h.2]
end
theorem Val.ok_of_beq {r : Except Err Val} {v : Val} (h : (match r with | .ok u => u.beq v | .error _ => false) = true) :
    r = .ok v := by
  cases r with
  | ok u => rw [Val.eq_of_beq h]
  | error e => cases h

/-- /repo/packing_context_node.go:9-15 `PackingContextNode`.  `delta` is the `Context`; the only implementation of
`IDeltaContext` is `DeltaContext`. -/
inductive Ctx where
  | node (delta : Option DCtx) (kids : List Ctx)

/-- `&zserio.PackingContextNode{}` -/
def Ctx.empty : Ctx := .node none []

/-- The methods of a generated type: `zserio.PackableZserioType`, /repo/iface.go.  A method with a pointer receiver
takes the old value and returns the new one.  Methods that update a packing context return the updated context.
`InitPackingContext` returns the context also in the error case since its caller drops the error. -/
structure Meth where
  /-- Go's zero value of the type -/
  zero : Val
  /-- `MarshalZserio` -/
  marshal : Val → Wr Unit
  /-- `UnmarshalZserio` -/
  unmarshal : Val → Rd Val
  /-- `ZserioBitSize` -/
  bitSize : Val → Int → Except Err Int
  /-- `ZserioCreatePackingContext` -/
  create : Ctx → Except Err Ctx
  /-- `ZserioInitPackingContext` -/
  init : Val → Ctx → Except Err Unit × Ctx
  /-- `MarshalZserioPacked` -/
  marshalP : Val → WS Ctx
  /-- `UnmarshalZserioPacked` -/
  unmarshalP : Val → Ctx → Rd (Val × Ctx)
  /-- `ZserioBitSizePacked` -/
  bitSizeP : Val → Ctx → Int → Except Err Int × Ctx

namespace ObjArr

/-- Loop /repo/ztype/object_array_encode.go:36-50 without packing; the error of `Write` on line 49 is dropped. -/
def plainLoop (m : Meth) (check : Bool) : List Val → Wr Unit
  | [] => pure ()
  | v :: vs => do
    offsetAlignW check
    Wr.dropErr (m.marshal v)
    plainLoop m check vs

/-- Loop /repo/ztype/object_array_encode.go:31-33: the errors of `InitContext` are dropped. -/
def initAll (m : Meth) : List Val → Ctx → Except Err Unit × Ctx
  | [], c => (.ok (), c)
  | v :: vs, c =>
    match m.init v c with
    | (.ok (), c) => initAll m vs c
    | (.error x, c) => if x.isPanic then (.error x, c) else initAll m vs c

/-- Loop /repo/ztype/object_array_encode.go:36-50 with packing; `ObjectArrayPackedTraits.Write`
(/repo/ztype/object_array_traits.go:99-101) drops the error. -/
def packedLoop (m : Meth) (check : Bool) : List Val → WS Ctx
  | [], c => WM.pure (.ok (), c)
  | v :: vs, c => WM.bind (ExceptT.run (offsetAlignW check)) fun r =>
    match r with
    | .error x => WM.pure (.error x, c)
    | .ok () => WM.bind (m.marshalP v c) fun r =>
      match r with
      | (.ok (), c) => packedLoop m check vs c
      | (.error x, c) => if x.isPanic then WM.pure (.error x, c) else packedLoop m check vs c

/-- The packed branch of `MarshalZserio`: create a context (/repo/ztype/object_array_traits.go:63-76), initialise it
with all elements, write them. -/
def packed (m : Meth) (check : Bool) (vs : List Val) : Wr Unit :=
  match m.create Ctx.empty with
  | .error x => throw x
  | .ok c0 =>
    match initAll m vs c0 with
    | (.error x, _) => throw x
    | (.ok (), c) => ExceptT.mk <| WM.bind (packedLoop m check vs c) fun r => WM.pure r.1

/-- /repo/ztype/object_array_encode.go:6-52 `ObjectArray.MarshalZserio`. -/
def marshal (m : Meth) (cfg : ArrCfg) (vs : List Val) : Wr Unit := do
  Arr.header cfg vs.length
  if vs.isEmpty then pure ()
  else if cfg.isPacked then packed m cfg.hasCheck vs
  else plainLoop m cfg.hasCheck vs

/-- Loop /repo/ztype/object_array_decode.go:35-57 without packing, from index `i`.  `setp` is
`SetCompoundParameterFn`; the elements are the zero values made on line 19. -/
def plainRead (m : Meth) (check : Bool) (setp : Nat → Val → Val) : Nat → Nat → Rd (List Val)
  | _, 0 => pure []
  | i, n + 1 => do
    offsetAlignR check
    let v ← m.unmarshal (setp i m.zero)
    let vs ← plainRead m check setp (i + 1) n
    pure (v :: vs)

/-- Loop /repo/ztype/object_array_decode.go:35-57 with packing. -/
def packedRead (m : Meth) (check : Bool) (setp : Nat → Val → Val) : Nat → Nat → Ctx → Rd (List Val)
  | _, 0, _ => pure []
  | i, n + 1, c => do
    offsetAlignR check
    let (v, c) ← m.unmarshalP (setp i m.zero) c
    let vs ← packedRead m check setp (i + 1) n c
    pure (v :: vs)

/-- /repo/ztype/object_array_decode.go:6-59 `ObjectArray.UnmarshalZserio`. -/
def unmarshal (m : Meth) (cfg : ArrCfg) (setp : Nat → Val → Val) : Rd (List Val) := do
  let size ← (if cfg.isAuto then do let n ← readVarsize; pure n.toNat else pure cfg.fixedSize)
  if size = 0 then pure []
  else if cfg.isPacked then
    match m.create Ctx.empty with
    | .error x => throw x
    | .ok c0 => packedRead m cfg.hasCheck setp 0 size c0
  else plainRead m cfg.hasCheck setp 0 size

/-- Loop /repo/ztype/object_array.go:52-57; `BitSizeOf` drops the error and adds 0
(/repo/ztype/object_array_traits.go:33-36; every `ZserioBitSize` returns 0 with an error).  A panic goes through. -/
def sizeLoop (m : Meth) (set : Bool) : List Val → Int → Except Err Int
  | [], p => .ok p
  | v :: vs, p =>
    let p := if set then alignTo 8 p else p
    match m.bitSize v p with
    | .ok d => sizeLoop m set vs (p + d)
    | .error x => if x.isPanic then .error x else sizeLoop m set vs p

/-- /repo/ztype/object_array.go:28-60 `ObjectArray.ZserioBitSize` (`BitSizeOfIsConstant` is false). -/
def bitSize (m : Meth) (cfg : ArrCfg) (vs : List Val) (pos : Int) : Except Err Int := do
  let h ← Arr.headerSize cfg vs.length
  let e ← sizeLoop m cfg.hasSet vs (pos + h)
  pure (e - pos)

/-- Loop /repo/ztype/object_array.go:77-86. -/
def sizePackedLoop (m : Meth) (set : Bool) : List Val → Ctx → Int → Except Err Int × Ctx
  | [], c, p => (.ok p, c)
  | v :: vs, c, p =>
    let p := if set then alignTo 8 p else p
    match m.bitSizeP v c p with
    | (.ok d, c) => sizePackedLoop m set vs c (p + d)
    | (.error x, c) => (.error x, c)

/-- /repo/ztype/object_array.go:63-89 `ObjectArray.ZserioBitSizePacked` on the current `PackedContext`.  A nil context
is dereferenced by `GetChildren` (a type without fields does not look at it; that case is not distinguished). -/
def bitSizePacked (m : Meth) (cfg : ArrCfg) (vs : List Val) (ctx : Option Ctx) (pos : Int) : Except Err Int := do
  let h ← Arr.headerSize cfg vs.length
  if vs.isEmpty then pure h
  else match ctx with
    | none => throw (.panic "nil pointer dereference")
    | some c => do
      let e ← (sizePackedLoop m cfg.hasSet vs c (pos + h)).1
      pure (e - pos)

end ObjArr

/-! ## Laws -/

/-- `v` written by `marshal` is what `unmarshal` makes of `old`. -/
def Meth.RT (m : Meth) (ok : Val → Val → Prop) : Prop :=
  ∀ old v, ok old v → RoundTrip (m.marshal v) (m.unmarshal old) v

/-- The packed methods transmit every sequence of values.  `I c vs`: the context `c` has been initialised with `vs`.
`R cw cr vs`: writer and reader with contexts `cw` and `cr` are in step when `vs` are still to come; this also holds
for any values if nothing was initialised. -/
def Meth.Packs (m : Meth) (ok : Val → Val → Prop) : Prop :=
  ∃ (I : Ctx → List Val → Prop) (R : Ctx → Ctx → List Val → Prop),
    (∀ c0, m.create Ctx.empty = .ok c0 → I c0 [] ∧ (∀ c vs, I c vs → R c c0 vs) ∧ ∀ vs, R c0 c0 vs) ∧
    (∀ c vs old v, I c vs → ok old v → ∃ c', m.init v c = (.ok (), c') ∧ I c' (vs ++ [v])) ∧
    (∀ cw cr old v vs, ok old v → R cw cr (v :: vs) → ∀ s, ∃ out cw' cr',
      WM.run (m.marshalP v cw) s = ((.ok (), cw'), s ++ out) ∧
      Reads (m.unmarshalP old cr) out s.length (v, cr') ∧ R cw' cr' vs)

/-- Every element is acceptable at its index. -/
def ElemsOk (ok : Val → Val → Prop) (zero : Val) (setp : Nat → Val → Val) (i : Nat) : List Val → Prop
  | [] => True
  | v :: vs => ok (setp i zero) v ∧ ElemsOk ok zero setp (i + 1) vs

theorem ElemsOk.mem {ok : Val → Val → Prop} {zero : Val} {setp : Nat → Val → Val} {i : Nat} {vs : List Val}
    (h : ElemsOk ok zero setp i vs) : ∀ v ∈ vs, ∃ old, ok old v := by
  induction vs generalizing i with
  | nil => simp
  | cons v vs ih =>
    intro x hx
    rcases List.mem_cons.mp hx with rfl | hx
    · exact ⟨_, h.1⟩
    · exact ih h.2 x hx

/-- The element count can be transmitted with this configuration. -/
def LenOk (cfg : ArrCfg) (n : Nat) : Prop := if cfg.isAuto then n ≤ maxVarsize else cfg.fixedSize = n

namespace ObjArr

theorem plain_rt {m : Meth} {ok : Val → Val → Prop} (hrt : m.RT ok) (check : Bool) (setp : Nat → Val → Val) (vs : List Val)
    (i : Nat) (hok : ElemsOk ok m.zero setp i vs) :
    RoundTrip (plainLoop m check vs) (plainRead m check setp i vs.length) vs := by
  induction vs generalizing i with
  | nil => exact fun s => ⟨[], Writes.pure s, Reads.pure [] _⟩
  | cons v vs ih =>
    intro s
    obtain ⟨pad, _, _, p1, p2⟩ := offsetAlign_rt check s
    obtain ⟨o1, a1, a2⟩ := hrt _ v hok.1 (s ++ pad)
    obtain ⟨o2, b1, b2⟩ := ih (i + 1) hok.2 (s ++ pad ++ o1)
    refine ⟨pad ++ (o1 ++ o2), p1.bind (a1.dropErr.bind b1), ?_⟩
    refine p2.bind ?_
    rw [List.length_append] at a2
    refine a2.bind ?_
    rw [List.length_append, List.length_append] at b2
    exact Reads.map (f := fun vs => v :: vs) b2

theorem packed_rt {m : Meth} {ok : Val → Val → Prop} {R : Ctx → Ctx → List Val → Prop}
    (hstep : ∀ cw cr old v vs, ok old v → R cw cr (v :: vs) → ∀ s, ∃ out cw' cr',
      WM.run (m.marshalP v cw) s = ((.ok (), cw'), s ++ out) ∧
      Reads (m.unmarshalP old cr) out s.length (v, cr') ∧ R cw' cr' vs)
    (check : Bool) (setp : Nat → Val → Val) (vs : List Val) (i : Nat) (hok : ElemsOk ok m.zero setp i vs) (cw cr : Ctx)
    (hR : R cw cr vs) (s : List Bool) :
    ∃ out c, WM.run (packedLoop m check vs cw) s = ((.ok (), c), s ++ out) ∧
      Reads (packedRead m check setp i vs.length cr) out s.length vs := by
  induction vs generalizing i cw cr s with
  | nil => exact ⟨[], cw, by simp [packedLoop, WM.run_pure], Reads.pure [] _⟩
  | cons v vs ih =>
    obtain ⟨pad, _, _, p1, p2⟩ := offsetAlign_rt check s
    obtain ⟨o1, cw1, cr1, a1, a2, a3⟩ := hstep cw cr _ v vs hok.1 hR (s ++ pad)
    obtain ⟨o2, c, b1, b2⟩ := ih (i + 1) hok.2 cw1 cr1 a3 (s ++ pad ++ o1)
    refine ⟨pad ++ (o1 ++ o2), c, ?_, ?_⟩
    · unfold packedLoop
      rw [WM.run_bind]
      unfold Writes wrun at p1
      rw [p1]
      dsimp only
      rw [WM.run_bind, a1]
      dsimp only
      rw [b1]
      simp
    · refine p2.bind ?_
      rw [List.length_append] at a2
      refine a2.bind ?_
      rw [List.length_append, List.length_append] at b2
      exact Reads.map (f := fun vs => v :: vs) b2

end ObjArr

theorem header_rt {cfg : ArrCfg} {n : Nat} (h : LenOk cfg n) (s : List Bool) :
    ∃ out, (cfg.isAuto = true → unsignedBitSize (BitVec.ofNat 64 n) 5 = .ok out.length) ∧
      (cfg.isAuto = false → out = []) ∧ Writes (Arr.header cfg n) s out ∧
      Reads (if cfg.isAuto then do let n ← readVarsize; pure n.toNat else pure cfg.fixedSize) out s.length n := by
  unfold LenOk at h
  unfold Arr.header
  cases ha : cfg.isAuto with
  | false =>
    rw [ha, if_neg (by decide)] at h
    refine ⟨[], by simp, fun _ => rfl, Writes.pure s, ?_⟩
    rw [← h]; exact Reads.pure _ _
  | true =>
    rw [ha, if_pos rfl] at h
    have e : (BitVec.ofNat 64 n).toNat = n := ofNat64_toNat (by unfold maxVarsize at h; omega)
    obtain ⟨out, h1, h2, h3⟩ := varsize_rt (BitVec.ofNat 64 n) (by rw [e]; exact h) s
    refine ⟨out, fun _ => h1, by simp, h2, ?_⟩
    have := Reads.map (f := fun v : BitVec 64 => v.toNat) h3
    rw [e] at this
    exact this

namespace ObjArr

/-- Unpacked arrays of objects. -/
theorem marshal_rt {m : Meth} {ok : Val → Val → Prop} (hrt : m.RT ok) (cfg : ArrCfg) (hu : cfg.isPacked = false)
    (setp : Nat → Val → Val) (vs : List Val) (hok : ElemsOk ok m.zero setp 0 vs) (hlen : LenOk cfg vs.length) :
    RoundTrip (marshal m cfg vs) (unmarshal m cfg setp) vs := by
  intro s
  obtain ⟨a, _, _, a1, a2⟩ := header_rt hlen s
  cases vs with
  | nil => exact ⟨a ++ [], a1.bind (Writes.pure _), a2.bind (Reads.pure _ _)⟩
  | cons v vs =>
    obtain ⟨b, b1, b2⟩ := plain_rt hrt cfg.hasCheck setp (v :: vs) 0 hok (s ++ a)
    refine ⟨a ++ b, a1.bind ?_, a2.bind ?_⟩
    · rw [if_neg (by simp), hu, if_neg (by decide)]; exact b1
    · rw [if_neg (by simp), hu, if_neg (by decide)]
      rwa [List.length_append] at b2

theorem initAll_ok {m : Meth} {ok : Val → Val → Prop} {I : Ctx → List Val → Prop}
    (hi : ∀ c vs old v, I c vs → ok old v → ∃ c', m.init v c = (.ok (), c') ∧ I c' (vs ++ [v])) (vs : List Val)
    (hok : ∀ v ∈ vs, ∃ old, ok old v) (c : Ctx) (us : List Val) (hc : I c us) :
    ∃ cw, initAll m vs c = (.ok (), cw) ∧ I cw (us ++ vs) := by
  induction vs generalizing c us with
  | nil => exact ⟨c, rfl, by simpa using hc⟩
  | cons v vs ih =>
    obtain ⟨old, h⟩ := hok v (by simp)
    obtain ⟨c', h1, h2⟩ := hi c us old v hc h
    obtain ⟨cw, h3, h4⟩ := ih (fun x hx => hok x (by simp [hx])) c' _ h2
    refine ⟨cw, ?_, by simpa using h4⟩
    unfold initAll
    rw [h1]
    exact h3

/-- Packed arrays of objects. -/
theorem marshal_packed_rt {m : Meth} {ok : Val → Val → Prop} (hp : m.Packs ok) {c0 : Ctx}
    (hc : m.create Ctx.empty = .ok c0) (cfg : ArrCfg) (hu : cfg.isPacked = true)
    (setp : Nat → Val → Val) (vs : List Val) (hok : ElemsOk ok m.zero setp 0 vs) (hlen : LenOk cfg vs.length) :
    RoundTrip (marshal m cfg vs) (unmarshal m cfg setp) vs := by
  obtain ⟨I, R, h0, hi, hstep⟩ := hp
  obtain ⟨i0, iR, _⟩ := h0 c0 hc
  intro s
  obtain ⟨a, _, _, a1, a2⟩ := header_rt hlen s
  cases vs with
  | nil => exact ⟨a ++ [], a1.bind (Writes.pure _), a2.bind (Reads.pure _ _)⟩
  | cons v vs =>
    obtain ⟨cw, h1, h2⟩ := initAll_ok hi (v :: vs) hok.mem c0 [] i0
    obtain ⟨b, c, b1, b2⟩ := packed_rt hstep cfg.hasCheck setp (v :: vs) 0 hok cw c0 (iR _ _ h2) (s ++ a)
    refine ⟨a ++ b, a1.bind ?_, a2.bind ?_⟩
    · rw [if_neg (by simp), hu, if_pos rfl]
      unfold packed
      rw [hc]
      dsimp only
      rw [h1]
      dsimp only
      show WM.run (WM.bind _ _) _ = _
      rw [WM.run_bind, b1]
      rfl
    · rw [if_neg (by simp), hu, if_pos rfl, hc]
      rwa [List.length_append] at b2

end ObjArr

end Verif
