import Verif.SchemaDecl

/-!
# What `MarshalZserio` accepts

If `MarshalZserio` of a value of the Go type succeeds, the value is one of those that are transmitted (`Accepts`).  Array
elements have to be in range by assumption since errors of elements are dropped.
-/

namespace Verif

/-- The code succeeds. -/
def Succeeds (w : Wr Unit) (s : List Bool) : Prop := (wrun w s).1 = .ok ()

theorem Succeeds.bind {w : Wr Unit} {k : Unit → Wr Unit} {s : List Bool} (h : Succeeds (w >>= k) s) :
    Succeeds w s ∧ ∃ s', Succeeds (k ()) s' := by
  unfold Succeeds at *
  rw [wrun_bind] at h
  cases hw : wrun w s with
  | mk r s' =>
    rw [hw] at h
    cases r with
    | ok u => exact ⟨rfl, s', h⟩
    | error e => cases h

theorem Succeeds.not_throw {e : Err} {s : List Bool} (h : Succeeds (throw e) s) : False := by
  unfold Succeeds at h
  rw [wrun_throw] at h
  cases h

theorem Succeeds.not_reject {w : Wr Unit} {e : Err} {s : List Bool} (h : Succeeds w s) (h' : Rejects w s e) : False := by
  unfold Succeeds at h
  unfold Rejects at h'
  rw [h'] at h
  cases h

namespace Elem

/-- The values of the Go type, less those for which success of the write function does not mean that the value was
transmitted: the smallest int64 as varint64, singles that are no halves, buffers whose length does not match their size
field.  (Go slices are shorter than 2^63.) -/
def Sound : (k : Elem) → k.T → Prop
  | varint64 => fun e : BitVec 64 => e ≠ minInt64
  | string => fun e : List Byte => e.length < 2 ^ 63
  | bytes => fun e : Option BytesV => ∀ b, e = some b → b.Wf
  | extern => fun e : Option ExternV => ∀ b, e = some b → b.Wf
  | float16 => IsHalf
  | _ => fun _ => True

theorem accept (k : Elem) (hk : k.Wf) (y : k.T) (hs : k.Sound y) {s : List Bool} (h : Succeeds (k.writeS y) s) : k.Ok y := by
  have vu : ∀ {w max mb : Nat} {wr : BitVec w → Wr Unit} {rd : Rd (BitVec w)} (_ : VarUSpec wr rd max mb) (e : BitVec w),
      Succeeds (wr e) s → e.toNat ≤ max := by
    intro w max mb wr rd hv e h
    by_contra hc
    exact h.not_reject ((hv e s).2 (by omega))
  have vs : ∀ {w max mb : Nat} {wr : BitVec w → Wr Unit} {rd : Rd (BitVec w)} (_ : VarSSpec wr rd max mb) (e : BitVec w),
      Succeeds (wr e) s → |e.toInt| ≤ max := by
    intro w max mb wr rd hv e h
    by_contra hc
    exact h.not_reject ((hv e s).2 (by omega))
  cases k with
  | varint => trivial
  | varint16 => exact vs C05_varint16 y h
  | varint32 => exact vs C05_varint32 y h
  | varint64 =>
    show |BitVec.toInt (y : BitVec 64)| ≤ maxVarint64
    by_contra hc
    exact h.not_reject ((C05_varint64_partial y hs s).2 (by omega))
  | varuint => trivial
  | varuint16 => exact vu C04_varuint16 y h
  | varuint32 => exact vu C04_varuint32 y h
  | varuint64 => exact vu C04_varuint64 y h
  | varsize => exact vu C04_varsize y h
  | bits w n =>
    show BitVec.toNat (y : BitVec w) < 2 ^ n
    by_contra hc
    have e := setWidth64_toNat hk.2.2 (y : BitVec w)
    exact h.not_reject (C01_unsigned_bits_reject _ n (by have := hk.2.1; have := hk.2.2; omega) (by rw [e]; omega) s)
  | sbits w n =>
    show SignedFits (BitVec.toInt (y : BitVec w)) n
    by_contra hc
    have e := BitVec.toInt_signExtend_of_le (x := (y : BitVec w)) hk.2.2
    refine h.not_reject (C02_signed_bits_reject (BitVec.signExtend 64 (y : BitVec w)) n hk.1
      (by have := hk.2.1; have := hk.2.2; omega) ?_ s)
    rw [e]
    unfold SignedFits at hc
    by_cases h1 : BitVec.toInt (y : BitVec w) < -2 ^ (n - 1)
    · exact Or.inl h1
    · exact Or.inr (not_lt.mp fun h2 => hc ⟨not_lt.mp h1, h2⟩)
  | bool => trivial
  | string =>
    show List.length (y : List Byte) ≤ maxVarsize
    by_contra hc
    exact h.not_reject (C15_string_reject y (by omega) hs s)
  | bytes =>
    cases hy : (y : Option BytesV) with
    | none =>
      have : (bytes).writeS y = throw (.panic "nil pointer dereference") := by
        show bytesTraits.write y = _
        rw [hy]; rfl
      rw [this] at h
      exact h.not_throw.elim
    | some b =>
      refine ⟨hs b hy, ?_⟩
      by_contra hc
      have e : (bytes).writeS y = writeBytes b := by
        show bytesTraits.write y = _
        rw [hy]; rfl
      rw [e] at h
      exact h.not_reject (C15_bytes_reject b (by omega) s)
  | extern =>
    cases hy : (y : Option ExternV) with
    | none =>
      have : (extern).writeS y = throw (.panic "nil pointer dereference") := by
        show externTraits.write y = _
        rw [hy]; rfl
      rw [this] at h
      exact h.not_throw.elim
    | some b =>
      refine ⟨hs b hy, ?_⟩
      by_contra hc
      have e : (extern).writeS y = writeExtern b := by
        show externTraits.write y = _
        rw [hy]; rfl
      rw [e] at h
      exact h.not_reject (C15_extern_reject b (by omega) s)
  | float16 => exact hs
  | float32 => trivial
  | float64 => trivial

/-- A field value of the Go type. -/
def SoundV (k : Elem) (v : Val) : Prop := ∃ y, v = k.inj y ∧ k.Sound y

theorem acceptV (k : Elem) (hk : k.Wf) (v : Val) (hs : k.SoundV v) {s : List Bool} (h : Succeeds (k.writeS (k.val v)) s) :
    k.OkV v := by
  obtain ⟨y, rfl, hy⟩ := hs
  rw [k.val_inj] at h
  exact ⟨y, rfl, k.accept hk y hy h⟩

end Elem

namespace Field
variable (ms : Nat → Meth) (A : Acc) (T : Nat → Val → Val → Prop) (f : Field) (x : Exprs)

/-- Slices of any length with acceptable elements. -/
def TypedArr (packed : Bool) (v : Val) : Prop :=
  ∃ vs, v = .list vs ∧ vs.length < 2 ^ 63 ∧
    match f.ty with
    | .prim k => (k.withWidth x.width).Wf ∧ (packed = true → (k.withWidth x.width).IntLike) ∧
        ∀ v ∈ vs, (k.withWidth x.width).OkV v
    | .comp n => setAll x 0 vs = vs ∧ ElemsOk (A packed n) (ms n).zero (setArgs x) 0 vs ∧
        (packed = true → ∃ c, (ms n).create Ctx.empty = .ok c)

/-- Values of the Go type of the field. -/
def TypedVal (old v : Val) : Prop :=
  match f.arr, f.ty with
  | some packed, _ => f.TypedArr ms A x packed v
  | none, .prim k => (k.withWidth x.width).Wf ∧ (k.withWidth x.width).SoundV v
  | none, .comp n => setArgs x 0 v = v ∧ T n (setArgs x 0 old) v

/-- Any field. -/
def Typed (old v : Val) : Prop :=
  if x.active then
    f.align < 256 ∧
      (if f.optional then v = .none ∨ ∃ u, v = .some u ∧ f.TypedVal ms A T x (f.zeroVal ms) u
        else f.TypedVal ms A T x old v)
  else v = old

variable {ms A T f x}

theorem arr_accept {packed : Bool} {v : Val} (h : f.TypedArr ms A x packed v) {s : List Bool}
    (hs : Succeeds (f.writeArr ms x packed v) s) : f.OkArr ms A x packed v := by
  obtain ⟨vs, rfl, hlen, hrest⟩ := h
  unfold writeArr at hs
  dsimp only at hs
  by_cases hm : lenMatches x vs.length = true
  · rw [if_pos hm] at hs
    refine ⟨vs, rfl, ?_, ?_, hrest⟩
    · intro l hl
      unfold lenMatches at hm
      rw [hl] at hm
      simpa using hm
    · intro hn
      by_contra hc
      have hauto : (cfg x packed).isAuto = true := by unfold cfg; rw [hn]; rfl
      have e : (BitVec.ofNat 64 vs.length).toNat = vs.length := ofNat64_toNat (by omega)
      cases ht : f.ty with
      | prim k =>
        rw [ht] at hs
        exact hs.not_reject (C20_too_long _ _ hauto vs (by omega) (by omega) s)
      | comp n =>
        rw [ht] at hs
        dsimp only at hs
        have hh : ∀ us : List Val, us.length = vs.length → ¬ Succeeds (ObjArr.marshal (ms n) (cfg x packed) us) s := by
          intro us hus hs
          unfold ObjArr.marshal at hs
          have h1 := hs.bind.1
          unfold Arr.header at h1
          rw [hauto, if_pos rfl, hus] at h1
          exact h1.not_reject ((C04_varsize (BitVec.ofNat 64 vs.length) s).2 (by rw [e]; omega))
        rw [ht] at hrest
        rw [hrest.1] at hs
        exact hh vs rfl hs
  · rw [if_neg hm] at hs
    exact hs.not_throw.elim

theorem val_accept (H : ∀ n old v s, T n old v → Succeeds ((ms n).marshal v) s → A false n old v) {old v : Val}
    (h : f.TypedVal ms A T x old v) {s : List Bool} (hs : Succeeds (f.writeVal ms x v) s) : f.OkVal ms A x false old v := by
  unfold TypedVal at h
  unfold writeVal at hs
  unfold OkVal
  cases ha : f.arr with
  | some packed =>
    rw [ha] at h hs
    simp only [Bool.or_false]
    exact arr_accept h hs
  | none =>
    rw [ha] at h hs
    cases ht : f.ty with
    | prim k => rw [ht] at h hs; exact ⟨h.1, Elem.acceptV _ h.1 v h.2 hs⟩
    | comp n =>
      rw [ht] at h hs
      dsimp only at hs
      rw [h.1] at hs
      exact ⟨h.1, H n _ v s h.2 hs⟩

theorem accept (H : ∀ n old v s, T n old v → Succeeds ((ms n).marshal v) s → A false n old v) {old v : Val}
    (h : f.Typed ms A T x old v) {s : List Bool} (hs : Succeeds (f.encode ms x v) s) : f.Ok ms A x false old v := by
  unfold Typed at h
  unfold encode at hs
  unfold Ok
  cases hx : x.active with
  | false =>
    rw [hx, if_neg (by decide)] at h
    rw [if_neg (by decide)]
    exact h
  | true =>
    rw [hx, if_pos rfl] at h hs
    rw [if_pos rfl]
    refine ⟨h.1, ?_⟩
    obtain ⟨_, s', hs⟩ := hs.bind
    cases ho : f.optional with
    | false =>
      rw [ho, if_neg (by decide)] at h hs
      rw [if_neg (by decide)]
      exact val_accept H h.2 hs
    | true =>
      rw [ho, if_pos rfl] at h hs
      rw [if_pos rfl]
      rcases h.2 with rfl | ⟨u, rfl, hu⟩
      · exact Or.inl rfl
      · obtain ⟨_, s'', hs⟩ := hs.bind
        exact Or.inr ⟨u, rfl, val_accept H hu hs⟩

end Field

section
variable (ms : Nat → Meth) (A : Acc) (T : Nat → Val → Val → Prop)

/-- Field by field. -/
def TypedLoop (env : Env) : List Field → List Val → List Val → Prop
  | f :: fs, o :: os, v :: vs => f.Typed ms A T (f.exprs env) o v ∧ TypedLoop env fs os vs
  | [], [], [] => True
  | _, _, _ => False

/-- One field changes from `olds` to `vs`. -/
def TypedAt (fs : List Field) (i : Nat) (ps olds vs : List Val) : Prop :=
  ∃ f o u, fs[i]? = some f ∧ olds[i]? = some o ∧ vs = olds.set i u ∧ f.Typed ms A T (f.exprs ⟨ps, olds⟩) o u

/-- `v` is a Go value of the declared type that agrees with `old` where nothing is transmitted. -/
def Decl.Typed (d : Decl) (old v : Val) : Prop :=
  match d with
  | .struct fs => ∃ t ps olds vs, old = .obj t ps olds ∧ v = .obj t ps vs ∧ TypedLoop ms A T ⟨ps, vs⟩ fs olds vs
  | .union fs => ∃ t₀ t ps olds vs, old = .obj t₀ ps olds ∧ v = .obj t ps vs ∧ t < 2 ^ 63 ∧
      (if 1 ≤ t ∧ t ≤ fs.length then TypedAt ms A T fs (t - 1) ps olds vs else vs = olds)
  | .choice sel cases dflt => ∃ t ps olds vs, old = .obj t ps olds ∧ v = .obj t ps vs ∧
      match pick (sel ps) cases dflt with
      | some i => TypedAt ms A T (choiceFields cases dflt) i ps olds vs
      | none => vs = olds
  | .enum k => k.SoundV v

variable {ms A T}

theorem loop_accept (H : ∀ n old v s, T n old v → Succeeds ((ms n).marshal v) s → A false n old v) (env : Env)
    (fs : List Field) (olds vs : List Val) (h : TypedLoop ms A T env fs olds vs) (s : List Bool)
    (hs : Succeeds (encLoop ms env fs vs) s) : OkLoop ms A false env fs olds vs := by
  induction fs generalizing olds vs s with
  | nil =>
    cases olds <;> cases vs <;> simp only [TypedLoop] at h
    trivial
  | cons f fs ih =>
    cases olds <;> cases vs <;> simp only [TypedLoop] at h
    obtain ⟨h1, s', h2⟩ := hs.bind
    exact ⟨Field.accept H h.1 h1, ih _ _ h.2 s' h2⟩

theorem at_accept (H : ∀ n old v s, T n old v → Succeeds ((ms n).marshal v) s → A false n old v) (fs : List Field)
    (hl : ∀ f ∈ fs, f.Local 0) (i : Nat) (ps olds vs : List Val) (h : TypedAt ms A T fs i ps olds vs) (s : List Bool)
    (hs : Succeeds (encAt ms fs i ps vs) s) : OkAt ms A fs i false ps olds vs := by
  obtain ⟨f, o, u, hf, ho, rfl, ht⟩ := h
  have hi : i < olds.length := by
    by_contra hc
    rw [List.getElem?_eq_none (by omega)] at ho
    simp at ho
  refine ⟨f, o, u, hf, ho, rfl, ?_⟩
  unfold encAt at hs
  rw [hf, List.getElem?_set_self hi] at hs
  dsimp only at hs
  rw [hl f (List.mem_of_getElem? hf) ps (olds.set i u) olds (by simp)] at hs
  exact Field.accept H ht hs

end

/-- Values of the Go type at nesting level `n`. -/
def Typed (schema : Nat → Decl) : Nat → Nat → Val → Val → Prop
  | 0, _, _, _ => False
  | n + 1, name, old, v => (schema name).Typed (methods schema n) (Accepts schema n) (Typed schema n) old v

theorem schema_accept (schema : Nat → Decl) (hw : ∀ name, (schema name).Wf) (n : Nat) :
    ∀ name old v s, Typed schema n name old v → Succeeds ((methods schema n name).marshal v) s →
      Accepts schema n false name old v := by
  induction n with
  | zero => exact fun _ _ _ _ h => h.elim
  | succ n ih =>
    intro name old v s h hs
    have hwn := hw name
    change (schema name).Typed _ _ _ old v at h
    change Succeeds (((schema name).meth (methods schema n)).marshal v) s at hs
    show (schema name).Ok _ _ false old v
    cases hd : schema name with
    | struct fs =>
      rw [hd] at h hs
      obtain ⟨t, ps, olds, vs, rfl, rfl, h⟩ := h
      exact ⟨t, ps, olds, vs, rfl, rfl, loop_accept ih _ fs olds vs h s hs⟩
    | union fs =>
      rw [hd] at h hs hwn
      obtain ⟨t₀, t, ps, olds, vs, rfl, rfl, ht, h⟩ := h
      have e : (BitVec.ofNat 64 t).toNat = t := ofNat64_toNat (by omega)
      obtain ⟨h1, s', h2⟩ := hs.bind
      have hmax : t ≤ maxVarsize := by
        by_contra hc
        exact h1.not_reject ((C04_varsize (BitVec.ofNat 64 t) s).2 (by rw [e]; omega))
      refine ⟨rfl, t₀, t, ps, olds, vs, rfl, rfl, hmax, ?_⟩
      by_cases hc : 1 ≤ t ∧ t ≤ fs.length
      · rw [if_pos hc] at h h2 ⊢
        exact at_accept ih fs hwn _ _ _ _ h s' h2
      · rw [if_neg hc] at h ⊢
        exact h
    | choice sel cases dflt =>
      rw [hd] at h hs hwn
      obtain ⟨t, ps, olds, vs, rfl, rfl, h⟩ := h
      refine ⟨fun hf => (by cases hf), t, ps, olds, vs, rfl, rfl, ?_⟩
      change Succeeds (match pick (sel ps) cases dflt with
        | some i => encAt (methods schema n) (choiceFields cases dflt) i ps vs
        | none => pure ()) s at hs
      cases hp : pick (sel ps) cases dflt with
      | none => rw [hp] at h; exact h
      | some i =>
        rw [hp] at h hs
        exact at_accept ih _ hwn _ _ _ _ h s hs
    | enum k =>
      rw [hd] at h hs hwn
      exact Elem.acceptV k hwn.1 v h hs

end Verif
