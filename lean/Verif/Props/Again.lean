import Verif.Props.ObjectWrite

/-!
# C102: what was decoded can be encoded again

`Yields p Q`: if the program ends with a result, the result is `Q`, whatever the input is.  Decoding yields values the encoder accepts.
-/

namespace Verif

/-- Every result of the program is `Q`. -/
def Yields {α : Type} (p : Rd α) (Q : α → Prop) : Prop := ∀ s v s', rrun p s = (.ok v, s') → Q v

namespace Yields
variable {α β : Type} {Q : α → Prop}

theorem pure {a : α} (h : Q a) : Yields (Pure.pure a : Rd α) Q := fun s v s' e => by
  rw [rrun_pure] at e
  cases e
  exact h

theorem throw {e : Err} : Yields (MonadExcept.throw e : Rd α) Q := fun s v s' h => by
  rw [rrun_throw] at h
  cases h

theorem bind {p : Rd α} {f : α → Rd β} {R : β → Prop} (h : Yields p Q) (hf : ∀ a, Q a → Yields (f a) R) : Yields (p >>= f) R := fun s v s' e => by
  rw [rrun_bind] at e
  have := h s
  revert this e
  generalize rrun p s = q
  obtain ⟨r, st⟩ := q
  cases r with
  | ok a => exact fun e this => hf a (this a st rfl) st v s' e
  | error x => exact fun e => by cases e

theorem mono {p : Rd α} {R : α → Prop} (h : Yields p Q) (hq : ∀ a, Q a → R a) : Yields p R := fun s v s' e => hq v (h s v s' e)

theorem any {p : Rd α} : Yields p fun _ => True := fun _ _ _ _ => trivial

theorem call (o : ROp) : Yields (Rd.call o) fun r => ∃ l p, l.length = o.need ∧ r = o.resp l p := fun s v s' e => by
  rw [rrun_call] at e
  by_cases h : o.need ≤ s.rem.length
  · rw [if_pos h] at e
    cases e
    exact ⟨_, _, by simpa using h, rfl⟩
  · rw [if_neg h] at e
    cases e

end Yields

/-! ## Builtin types -/

theorem yields_bits (n : Nat) : Yields (Rd.bits n) fun v => v.toNat < 2 ^ n :=
  (Yields.call (.bits n)).mono fun v ⟨l, p, hl, hv⟩ => by
    subst hv
    have h1 : bitsVal l < 2 ^ n := by
      have := bitsVal_lt l
      rwa [hl] at this
    show (BitVec.ofNat 64 (bitsVal l)).toNat < 2 ^ n
    rw [BitVec.toNat_ofNat]
    exact lt_of_le_of_lt (Nat.mod_le _ _) h1

theorem yields_varU (w m : Nat) (hm : 2 ≤ m) (hw : 7 * m + 1 ≤ w) : Yields (readVarU w (m - 2)) fun v => v.toNat < 2 ^ (7 * m + 1) := by
  intro s v s' e
  obtain ⟨input, pos⟩ := s
  rcases C08_unsigned_total w m hm hw input pos with ⟨k, u, -, -, -, h, hb⟩ | ⟨st, h, -⟩
  · rw [h] at e
    cases e
    exact hb
  · rw [h] at e
    cases e

theorem yields_varS (w m : Nat) (hm : 2 ≤ m) (hw : 7 * m + 1 ≤ w) : Yields (readVarS w (m - 2)) fun v => |v.toInt| < 2 ^ (7 * m) := by
  intro s v s' e
  obtain ⟨input, pos⟩ := s
  rcases C08_signed_total w m hm hw input pos with ⟨k, u, -, -, -, h, hb⟩ | ⟨st, h, -⟩
  · rw [h] at e
    cases e
    exact hb
  · rw [h] at e
    cases e

theorem yields_varsize : Yields readVarsize fun v => v.toNat ≤ maxVarsize := by
  intro s v s' e
  obtain ⟨input, pos⟩ := s
  rcases C08_varsize_total input pos with ⟨k, u, -, -, -, h, hb⟩ | ⟨k, u, -, -, -, -, -, h⟩ | ⟨st, h, -⟩
  · rw [h] at e
    cases e
    exact hb
  · rw [h] at e
    cases e
  · rw [h] at e
    cases e

theorem bitsBytes_count : ∀ (n : Nat) (l : List Bool), l.length = 8 * n → (bitsBytes l).length = n
  | 0, l, h => by
    rw [bitsBytes, if_pos (by omega)]
    rfl
  | n + 1, l, h => by
    rw [bitsBytes, if_neg (by omega), List.length_cons, bitsBytes_count n _ (by simp; omega)]

theorem yields_full (n : Nat) : Yields (Rd.full n) fun b => b.length = n :=
  (Yields.call (.full n)).mono fun v ⟨l, p, hl, hv⟩ => by
    subst hv
    exact bitsBytes_count n l hl

/-- Low bits that are some value of the signed range. -/
theorem signed_of_low {n : Nat} (h1 : 1 ≤ n) (h2 : n ≤ 64) {u : BitVec 64} (hu : u.toNat < 2 ^ n) :
    ∃ v : BitVec 64, SignedFits v.toInt n ∧ u = BitVec.ofNat 64 (v.toNat % 2 ^ n) := by
  have hP : 2 ^ n ≤ 2 ^ 64 := Nat.pow_le_pow_right (by omega) h2
  have hhalf : 2 ^ n = 2 * 2 ^ (n - 1) := by
    rw [← pow_succ']; congr 1; omega
  have hcast : (2 : Int) ^ (n - 1) = ((2 ^ (n - 1) : Nat) : Int) := by norm_cast
  by_cases hb : u.toNat < 2 ^ (n - 1)
  · refine ⟨u, ?_, ?_⟩
    · unfold SignedFits
      rw [hcast, BitVec.toInt_eq_toNat_cond, if_pos (by omega)]
      omega
    · rw [Nat.mod_eq_of_lt hu]; simp
  · have hv : (BitVec.ofNat 64 (u.toNat + (2 ^ 64 - 2 ^ n))).toNat = u.toNat + (2 ^ 64 - 2 ^ n) := by
      rw [BitVec.toNat_ofNat]; exact Nat.mod_eq_of_lt (by omega)
    refine ⟨BitVec.ofNat 64 (u.toNat + (2 ^ 64 - 2 ^ n)), ?_, ?_⟩
    · unfold SignedFits
      rw [hcast, BitVec.toInt_eq_toNat_cond, hv, if_neg (by omega)]
      push_cast [hP]
      omega
    · rw [hv]
      obtain ⟨q, hq⟩ : 2 ^ n ∣ 2 ^ 64 := Nat.pow_dvd_pow 2 h2
      have : u.toNat + (2 ^ 64 - 2 ^ n) = u.toNat + 2 ^ n * (q - 1) := by
        rw [Nat.mul_sub, Nat.mul_one, ← hq]
      rw [this, Nat.add_mul_mod_self_left, Nat.mod_eq_of_lt hu]; simp

theorem fits_narrow {n w : Nat} (h1 : 1 ≤ n) (hn : n ≤ w) (hw : w ≤ 64) {v : BitVec 64} (hv : SignedFits v.toInt n) : FitsS n (v.setWidth w) := by
  have : (v.setWidth w).toInt = v.toInt := by
    have e : ((2 ^ w : Nat) : Int) = 2 * 2 ^ (w - 1) := by
      rw [← pow_succ']; push_cast; congr 1; omega
    have hle : (2 : Int) ^ (n - 1) ≤ 2 ^ (w - 1) := by
      exact_mod_cast Nat.pow_le_pow_right (by omega) (by omega)
    obtain ⟨a, b⟩ := hv
    rw [BitVec.toInt_setWidth, ← Int.bmod_bmod_of_dvd (Nat.pow_dvd_pow 2 hw), ← BitVec.toInt_eq_toNat_bmod]
    exact Int.bmod_eq_of_le (by omega) (by omega)
  unfold FitsS
  rw [this]
  exact hv

/-- A signalling half is read as the single a quiet one is read as. -/
theorem half_quieted : ∀ a : Fin 2, ∀ b : Fin 1024, b.val ≠ 0 → f16to32 (BitVec.ofNat 16 (a.val * 32768 + 31744 + b.val)) =
    f16to32 (BitVec.ofNat 16 (a.val * 32768 + 31744 + b.val) ||| 0x0200#16) := by
  decide +kernel

theorem isHalf_read (h : BitVec 16) : IsHalf (f16to32 h) := by
  by_cases hs : IsSignallingHalf h
  · refine ⟨h ||| 0x0200#16, ?_, ?_⟩
    · intro hq
      have := congrArg (fun b => b.getLsbD 9) hq.2.2
      simp at this
    · obtain ⟨s, e, c, h1, h2, h3, hh, -, g2, g3⟩ := f16_fields h
      rw [hs.1] at g2
      have he : e = 31 := by
        have : (0x7c00#16).toNat = 31744 := rfl
        omega
      have hc : c ≠ 0 := fun h0 => hs.2.1 (BitVec.eq_of_toNat_eq (by rw [g3, h0]; rfl))
      have := half_quieted ⟨s, h1⟩ ⟨c, h3⟩ hc
      rwa [show s * 32768 + 31744 + c = h.toNat by omega, BitVec.ofNat_toNat, BitVec.setWidth_eq] at this
  · exact ⟨h, hs, rfl⟩

theorem yields_extern : Yields readExtern fun e => e.Wf ∧ e.bitSize.toNat ≤ maxVarsize := by
  refine yields_varsize.bind fun n hn => (yields_full _).bind fun b hb => ?_
  split
  · rename_i hr
    refine (yields_bits _).bind fun last _ => .pure ⟨⟨?_, fun _ x hx => ?_⟩, hn⟩
    · show (b ++ [_]).length = (n.toNat + 7) / 8
      rw [List.length_append, hb, List.length_singleton]
      omega
    · dsimp only at hx ⊢
      rw [List.getLast?_append] at hx
      simp only [List.getLast?_singleton, Option.some_or, Option.some.injEq] at hx
      subst hx
      rw [BitVec.toNat_setWidth, BitVec.toNat_shiftLeft, Nat.shiftLeft_eq]
      have d1 : 2 ^ (8 - n.toNat % 8) ∣ 2 ^ 8 := Nat.pow_dvd_pow 2 (by omega)
      have d2 : 2 ^ (8 - n.toNat % 8) ∣ 2 ^ 64 := Nat.pow_dvd_pow 2 (by omega)
      rw [Nat.mod_mod_of_dvd _ d1, Nat.mod_mod_of_dvd _ d2]
      exact Nat.mul_mod_left _ _
  · rename_i hr
    have hr : n.toNat % 8 = 0 := by simpa using hr
    refine .pure ⟨⟨?_, fun h => absurd hr h⟩, hn⟩
    show b.length = (n.toNat + 7) / 8
    omega

theorem yields_traits (k : Elem) (hw : k.Wf) : Yields k.traits.read k.Ok := by
  cases k with
  | bits w n =>
    refine (yields_bits n).bind fun v hv => .pure ?_
    show (v.setWidth w).toNat < 2 ^ n
    rw [BitVec.toNat_setWidth]
    exact lt_of_le_of_lt (Nat.mod_le _ _) hv
  | sbits w n =>
    refine (yields_bits n).bind fun u hu => .pure ?_
    obtain ⟨h1, hn, h64⟩ := hw
    obtain ⟨v, hv, rfl⟩ := signed_of_low h1 (by omega) hu
    show FitsS n ((fillUpperBits (BitVec.ofNat 64 (v.toNat % 2 ^ n)) n).setWidth w)
    rw [fill_low h1 (by omega) hv]
    exact fits_narrow h1 hn h64 hv
  | bool => exact .any
  | string => exact yields_varsize.bind fun n hn => (yields_full _).mono fun b hb => by show b.length ≤ _; rw [hb]; exact hn
  | bytes =>
    refine Yields.bind (Q := fun b : BytesV => b.Wf ∧ b.byteSize.toNat ≤ maxVarsize) ?_ fun b hb => .pure hb
    exact yields_varsize.bind fun n hn => (yields_full _).bind fun b hb => .pure ⟨hb.symm, hn⟩
  | extern => exact yields_extern.bind fun b hb => .pure hb
  | float16 => exact Yields.any.bind fun h _ => .pure (isHalf_read h)
  | float32 => exact .any
  | float64 => exact .any
  | varint => exact .any
  | varint16 =>
    refine (yields_varS 16 2 (by omega) (by omega)).mono fun v h => ?_
    show |v.toInt| ≤ ((maxVarint16 : Nat) : Int)
    unfold maxVarint16
    norm_num at h ⊢
    omega
  | varint32 =>
    refine (yields_varS 32 4 (by omega) (by omega)).mono fun v h => ?_
    show |v.toInt| ≤ ((maxVarint32 : Nat) : Int)
    unfold maxVarint32
    norm_num at h ⊢
    omega
  | varint64 =>
    refine (yields_varS 64 8 (by omega) (by omega)).mono fun v h => ?_
    show |v.toInt| ≤ ((maxVarint64 : Nat) : Int)
    unfold maxVarint64
    norm_num at h ⊢
    omega
  | varuint => exact .any
  | varuint16 =>
    refine (yields_varU 16 2 (by omega) (by omega)).mono fun v h => ?_
    show v.toNat ≤ maxVaruint16
    unfold maxVaruint16
    norm_num at h ⊢
    omega
  | varuint32 =>
    refine (yields_varU 32 4 (by omega) (by omega)).mono fun v h => ?_
    show v.toNat ≤ maxVaruint32
    unfold maxVaruint32
    norm_num at h ⊢
    omega
  | varuint64 =>
    refine (yields_varU 64 8 (by omega) (by omega)).mono fun v h => ?_
    show v.toNat ≤ maxVaruint64
    unfold maxVaruint64
    norm_num at h ⊢
    omega
  | varsize => exact yields_varsize

theorem yields_readS (k : Elem) (hw : k.Wf) : Yields k.readS k.Ok := by
  cases k with
  | bits w n => exact yields_traits (.bits w n) hw
  | sbits w n =>
    obtain ⟨h1, hn, h64⟩ := hw
    refine Yields.bind (Q := fun v : BitVec 64 => SignedFits v.toInt n) ?_ fun v hv => .pure (fits_narrow h1 hn h64 hv)
    unfold readSignedBits
    rw [if_neg (by omega)]
    refine (yields_bits n).bind fun u hu => ?_
    obtain ⟨v, hv, rfl⟩ := signed_of_low h1 (by omega) hu
    have h := signed_recover h1 (by omega) hv
    split
    · rename_i hc; rw [if_pos hc] at h; rw [h]; exact .pure hv
    · rename_i hc; rw [if_neg hc] at h; rw [h]; exact .pure hv
  | _ => exact yields_traits _ hw

/-- The builtin types that have every value of their Go type. -/
def Elem.Full : Elem → Prop
  | .bits w n | .sbits w n => n = w
  | .bool | .varint | .varuint => True
  | _ => False

theorem Elem.Full.ok {k : Elem} (h : k.Full) (hw : k.Wf) : k.IntLike ∧ ∀ y, k.Ok y := by
  cases k with
  | bits w n =>
    obtain rfl : n = w := h
    exact ⟨trivial, fun y => y.isLt⟩
  | sbits w n =>
    obtain rfl : n = w := h
    refine ⟨trivial, fun y => ⟨?_, ?_⟩⟩
    · exact BitVec.le_toInt (y : BitVec n)
    · exact BitVec.toInt_lt (x := (y : BitVec n))
  | bool => exact ⟨trivial, fun _ => trivial⟩
  | varint => exact ⟨trivial, fun _ => trivial⟩
  | varuint => exact ⟨trivial, fun _ => trivial⟩
  | _ => exact h.elim

/-! ## Fields -/

section
variable {ms : Nat → Meth} {A : Acc} {f : Field} {x : Exprs}

theorem yields_plain {T : Type} {tr : Traits T} {Q : T → Prop} (h : Yields tr.read Q) (check : Bool) :
    ∀ n, Yields (Arr.plainRead tr check n) fun vs => vs.length = n ∧ ∀ v ∈ vs, Q v
  | 0 => .pure ⟨rfl, nofun⟩
  | n + 1 => Yields.any.bind fun _ _ => h.bind fun v hv => (yields_plain h check n).bind fun vs hs => .pure ⟨by simp [hs.1], by
      intro u hu
      rcases List.mem_cons.1 hu with rfl | hu
      · exact hv
      · exact hs.2 u hu⟩

theorem yields_delta {T : Type} {tr : Traits T} {Q : T → Prop} (h : Yields tr.read Q) (hu : ∀ u, Q (tr.fromU64 u)) (c : DCtx) :
    Yields (DCtx.read tr c) fun r => Q r.1 := by
  have hun : ∀ c : DCtx, Yields (DCtx.readUnpacked tr c) fun r => Q r.1 := fun c => h.bind fun _ hv => .pure hv
  unfold DCtx.read
  split
  · exact Yields.any.bind fun c _ => hun c
  · split
    · exact hun c
    · have last : ∀ c : DCtx, Yields (match c.prev with
          | none => throw (.panic "nil pointer dereference")
          | some p => pure (tr.fromU64 p, c) : Rd (T × DCtx)) fun r => Q r.1 := fun c => by
        cases c.prev with
        | none => exact .throw
        | some p => exact .pure (hu p)
      dsimp only
      split
      · refine Yields.any.bind fun d _ => ?_
        split
        · exact Yields.any.bind fun c _ => last c
        · exact Yields.any.bind fun c _ => last c
      · exact Yields.any.bind fun c _ => last c

theorem yields_packed {T : Type} {tr : Traits T} {Q : T → Prop} (h : Yields tr.read Q) (hu : ∀ u, Q (tr.fromU64 u)) (check : Bool) :
    ∀ n c, Yields (Arr.packedRead tr check n c) fun vs => vs.length = n ∧ ∀ v ∈ vs, Q v
  | 0, _ => .pure ⟨rfl, nofun⟩
  | n + 1, c => Yields.any.bind fun _ _ => (yields_delta h hu c).bind fun r hv => (yields_packed h hu check n r.2).bind fun vs hs => .pure ⟨by simp [hs.1], by
      intro u hu
      rcases List.mem_cons.1 hu with rfl | hu
      · exact hv
      · exact hs.2 u hu⟩

/-- Every result of decoding into an object is a value that can replace it. -/
def Yielding (ms : Nat → Meth) (A : Acc) : Prop := ∀ n old, Yields ((ms n).unmarshal old) (A false n old)

/-- Parameters survive decoding. -/
def Steady (A : Acc) : Prop := ∀ n x i old v, A false n (Field.setArgs x i old) v → Field.setArgs x i v = v

theorem yields_objects (hY : Yielding ms A) (hS : Steady A) (m : Nat) (check : Bool) (x : Exprs) :
    ∀ i n, Yields (ObjArr.plainRead (ms m) check (Field.setArgs x) i n) fun vs => vs.length = n ∧ Field.setAll x i vs = vs ∧
      ElemsOk (A false m) (ms m).zero (Field.setArgs x) i vs
  | _, 0 => .pure ⟨rfl, rfl, trivial⟩
  | i, n + 1 => Yields.any.bind fun _ _ => (hY m _).bind fun v hv => (yields_objects hY hS m check x (i + 1) n).bind fun vs hs =>
    .pure ⟨by simp [hs.1], by
      show Field.setArgs x i v :: Field.setAll x (i + 1) vs = v :: vs
      rw [hS _ _ _ _ _ hv, hs.2.1], hv, hs.2.2⟩

theorem yields_count (cfg : ArrCfg) :
    Yields (if cfg.isAuto then (do let n ← readVarsize; pure n.toNat) else pure cfg.fixedSize : Rd Nat) fun n => if cfg.isAuto then n ≤ maxVarsize else n = cfg.fixedSize := by
  split
  · exact yields_varsize.bind fun _ h => .pure h
  · exact .pure rfl

/-- Fields whose decoded values can be encoded again. -/
def Field.Kept (f : Field) : Prop :=
  f.align < 256 ∧ (f.arr = some true → ∃ k, f.ty = .prim k ∧ ∀ env, (k.withWidth (f.exprs env).width).Full) ∧
    ∀ k, f.ty = .prim k → ∀ env, (k.withWidth (f.exprs env).width).Wf

/-- The same for given values of the expressions. -/
def Field.KeptAt (f : Field) (x : Exprs) : Prop :=
  f.align < 256 ∧ (f.arr = some true → ∃ k, f.ty = .prim k ∧ (k.withWidth x.width).Full) ∧
    ∀ k, f.ty = .prim k → (k.withWidth x.width).Wf

theorem Field.Kept.at (h : f.Kept) (env : Env) : f.KeptAt (f.exprs env) :=
  ⟨h.1, fun e => (h.2.1 e).imp fun _ hk => ⟨hk.1, hk.2 env⟩, fun k e => h.2.2 k e env⟩

theorem yields_arr (hY : Yielding ms A) (hS : Steady A) (h : f.KeptAt x) (packed : Bool)
    (ha : f.arr = some packed) : Yields (f.readArr ms x packed) (f.OkArr ms A x packed) := by
  have hlen : ∀ n : Nat, ¬ x.len.getD 0 < 0 → (if (Field.cfg x packed).isAuto then n ≤ maxVarsize else n = (Field.cfg x packed).fixedSize) →
      (∀ l, x.len = some l → l = n) ∧ (x.len = none → n ≤ maxVarsize) := by
    intro n hneg hn
    cases hl : x.len with
    | none =>
      simp only [Field.cfg, hl, Option.isNone_none, if_true] at hn
      exact ⟨nofun, fun _ => hn⟩
    | some l =>
      simp only [Field.cfg, hl, Option.isNone_some, Option.getD_some] at hn hneg
      refine ⟨fun l' e => ?_, nofun⟩
      cases e
      simp at hn
      omega
  unfold Field.readArr Field.OkArr
  split
  · exact .throw
  · rename_i hneg
    split
    · rename_i k hk
      have h2 := h.2.2 k hk
      have full : packed = true → (k.withWidth x.width).Full := fun hp => by
        obtain ⟨k', e, hf⟩ := h.2.1 (by rw [ha, hp])
        rw [hk] at e
        cases e
        exact hf
      have hfull : packed = true → (k.withWidth x.width).IntLike := fun hp => ((full hp).ok h2).1
      refine Yields.bind (Q := fun vs : List Val => ((∀ l, x.len = some l → l = vs.length) ∧ (x.len = none → vs.length ≤ maxVarsize)) ∧
        ∀ v ∈ vs, (k.withWidth x.width).OkV v) ?_ fun vs hs => .pure ⟨vs, rfl, hs.1.1, hs.1.2, by rw [hk]; exact ⟨h2, hfull, hs.2⟩⟩
      unfold Arr.unmarshal
      refine (yields_count _).bind fun n hn => ?_
      have hr : Yields (k.withWidth x.width).vt.read (k.withWidth x.width).OkV := (yields_traits _ h2).bind fun y hy => .pure ⟨y, rfl, hy⟩
      split
      · rename_i hp
        refine (yields_packed hr (fun u => ⟨_, rfl, ((full hp).ok h2).2 _⟩) _ n _).mono fun vs hs => ?_
        rw [hs.1]
        exact ⟨hlen n hneg hn, hs.2⟩
      · refine (yields_plain hr _ n).mono fun vs hs => ?_
        rw [hs.1]
        exact ⟨hlen n hneg hn, hs.2⟩
    · rename_i m hm
      have hp : packed = false := by
        cases packed
        · rfl
        · obtain ⟨k, e, -⟩ := h.2.1 ha
          rw [hm] at e
          cases e
      subst hp
      refine Yields.bind (Q := fun vs : List Val => ((∀ l, x.len = some l → l = vs.length) ∧ (x.len = none → vs.length ≤ maxVarsize)) ∧
        Field.setAll x 0 vs = vs ∧ ElemsOk (A false m) (ms m).zero (Field.setArgs x) 0 vs) ?_ fun vs hs => .pure ⟨vs, rfl, hs.1.1, hs.1.2, by rw [hm]; exact ⟨hs.2.1, hs.2.2, nofun⟩⟩
      unfold ObjArr.unmarshal
      refine (yields_count _).bind fun n hn => ?_
      split
      · rename_i h0
        subst h0
        exact .pure ⟨hlen 0 hneg hn, rfl, trivial⟩
      · rw [if_neg (by simp [Field.cfg])]
        refine (yields_objects hY hS m _ x 0 n).mono fun vs hs => ?_
        rw [hs.1]
        exact ⟨hlen n hneg hn, hs.2⟩

theorem yields_val (hY : Yielding ms A) (hS : Steady A) (h : f.KeptAt x) (old : Val) : Yields (f.readVal ms x old) (f.OkVal ms A x false old) := by
  unfold Field.readVal Field.OkVal
  split
  · rename_i packed e
    exact (yields_arr hY hS h packed e).mono fun v hv => by rw [e]; cases packed <;> exact hv
  · rename_i k ha hk
    have h2 := h.2.2 k hk
    exact (yields_readS _ h2).bind fun y hy => .pure (by rw [ha, hk]; exact ⟨h2, y, rfl, hy⟩)
  · rename_i m ha hm
    exact (hY m _).mono fun v hv => by rw [ha, hm]; exact ⟨hS _ _ _ _ _ hv, hv⟩

theorem yields_field (hY : Yielding ms A) (hS : Steady A) (h : f.KeptAt x) (old : Val) : Yields (f.decode ms x old) (f.Ok ms A x false old) := by
  unfold Field.decode Field.Ok
  split
  · refine Yields.any.bind fun _ _ => ?_
    split
    · refine Yields.any.bind fun b _ => ?_
      split
      · exact (yields_val hY hS h _).bind fun v hv => .pure ⟨h.1, .inr ⟨v, rfl, hv⟩⟩
      · exact .pure ⟨h.1, .inl rfl⟩
    · exact (yields_val hY hS h old).mono fun v hv => ⟨h.1, hv⟩
  · exact .pure rfl

/-! ## Declarations -/

/-- Declarations whose decoded values can be encoded again. -/
def Decl.Kept (d : Decl) : Prop := ∀ f ∈ d.allFields, f.Kept

theorem yields_loop (hY : Yielding ms A) (hS : Steady A) (ps : List Val) : ∀ (fs : List Field) (done olds : List Val),
    LocalFrom done.length fs → (∀ f ∈ fs, f.Kept) →
    Yields (decLoop ms ps done fs olds) fun r => ∃ vs, r = done ++ vs ∧ OkLoop ms A false ⟨ps, r⟩ fs olds vs
  | [], done, [], _, _ => .pure ⟨[], by simp, trivial⟩
  | [], _, _ :: _, _, _ => .throw
  | _ :: _, _, [], _, _ => .throw
  | f :: fs, done, old :: olds, hl, hk => by
    have hf := hk f (by simp)
    unfold decLoop
    refine (yields_field hY hS (x := f.exprs ⟨ps, done ++ old :: olds⟩) (hf.at _) old).bind fun v hv => ?_
    refine (yields_loop hY hS ps fs (done ++ [v]) olds (by rw [List.length_append]; exact hl.2) fun g hg => hk g (by simp [hg])).mono ?_
    rintro _ ⟨vs, rfl, hvs⟩
    have e : f.exprs ⟨ps, done ++ old :: olds⟩ = f.exprs ⟨ps, done ++ [v] ++ vs⟩ := hl.1 _ _ _ (by simp)
    rw [e] at hv
    exact ⟨v :: vs, by simp, hv, hvs⟩

theorem yields_at (hY : Yielding ms A) (hS : Steady A) (ps olds : List Val) (fs : List Field) (hk : ∀ f ∈ fs, f.Kept) (i : Nat) :
    Yields (decAt ms fs i ps olds) (OkAt ms A fs i false ps olds) := by
  unfold decAt
  split
  · rename_i f old hf ho
    have hf' := hk f (List.mem_of_getElem? hf)
    exact (yields_field hY hS (x := f.exprs ⟨ps, olds⟩) (hf'.at _) old).bind fun v hv =>
      .pure ⟨f, old, v, hf, ho, rfl, hv⟩
  · exact .throw

theorem yields_decl (hY : Yielding ms A) (hS : Steady A) (d : Decl) (hw : d.Wf) (hk : d.Kept) (old : Val) :
    Yields ((d.meth ms).unmarshal old) (d.Ok ms A false old) := by
  cases d with
  | struct fs =>
    show Yields ((structMeth ms fs).unmarshal old) _
    cases old with
    | obj t ps olds =>
      refine (yields_loop hY hS ps fs [] olds hw hk).bind ?_
      intro r ⟨vs, hr, h⟩
      have hr : r = vs := hr
      rw [← hr] at h
      exact .pure ⟨t, ps, olds, r, rfl, rfl, h⟩
    | _ => exact .throw
  | union fs =>
    show Yields ((unionMeth ms fs).unmarshal old) _
    cases old with
    | obj t ps olds =>
      refine yields_varsize.bind fun u hu => ?_
      dsimp only
      split
      · rename_i hc
        exact (yields_at hY hS ps olds fs hk _).bind fun vs h => .pure ⟨rfl, t, _, ps, olds, vs, rfl, rfl, hu, by rw [if_pos hc]; exact h⟩
      · rename_i hc
        exact .pure ⟨rfl, t, _, ps, olds, olds, rfl, rfl, hu, by rw [if_neg hc]⟩
    | _ => exact .throw
  | choice sel cases' dflt =>
    show Yields ((choiceMeth ms sel cases' dflt).unmarshal old) _
    cases old with
    | obj t ps olds =>
      unfold choiceMeth
      dsimp only
      cases hp : pick (sel ps) cases' dflt with
      | some i =>
        exact (yields_at hY hS ps olds _ hk i).bind fun vs h => .pure ⟨nofun, t, ps, olds, vs, rfl, rfl, by rw [hp]; exact h⟩
      | none => exact .pure ⟨nofun, t, ps, olds, olds, rfl, rfl, by rw [hp]⟩
    | _ => exact .throw
  | enum k => exact (yields_readS k hw.1).bind fun y hy => .pure ⟨y, rfl, hy⟩

theorem Elem.inj_steady (k : Elem) (y : k.T) (x : Exprs) (i : Nat) : Field.setArgs x i (k.inj y) = k.inj y := by
  unfold Field.setArgs
  cases x.args <;> cases k <;> rfl

theorem steady_decl (d : Decl) (x : Exprs) (i : Nat) (old v : Val) (h : d.Ok ms A false (Field.setArgs x i old) v) : Field.setArgs x i v = v := by
  have key : ∀ t₀ t ps olds vs, Field.setArgs x i old = .obj t₀ ps olds → v = .obj t ps vs → Field.setArgs x i v = v := by
    rintro t₀ t ps olds vs h1 rfl
    unfold Field.setArgs at h1 ⊢
    cases ha : x.args with
    | none => rfl
    | some a =>
      rw [ha] at h1
      cases old <;> simp_all
  cases d with
  | struct fs =>
    obtain ⟨t, ps, olds, vs, h1, h2, -⟩ := h
    exact key _ _ _ _ _ h1 h2
  | union fs =>
    obtain ⟨-, t₀, t, ps, olds, vs, h1, h2, -⟩ := h
    exact key _ _ _ _ _ h1 h2
  | choice sel cases' dflt =>
    obtain ⟨-, t, ps, olds, vs, h1, h2, -⟩ := h
    exact key _ _ _ _ _ h1 h2
  | enum k =>
    obtain ⟨y, rfl, -⟩ := h
    exact k.inj_steady y x i

end

/-- Decoding yields values the encoder accepts. -/
theorem schema_yields {schema : Nat → Decl} (hw : ∀ i, (schema i).Wf) (hk : ∀ i, (schema i).Kept) (n : Nat) :
    Yielding (methods schema n) (Accepts schema n) ∧ Steady (Accepts schema n) := by
  induction n with
  | zero => exact ⟨fun _ _ => .throw, fun _ _ _ _ _ h => h.elim⟩
  | succ n ih => exact ⟨fun m old => yields_decl ih.1 ih.2 (schema m) (hw m) (hk m) old, fun m x i old v h => steady_decl (schema m) x i old v h⟩

/-- **C102**: whatever `UnmarshalZserio` makes of any input, `MarshalZserio` writes it, at any position, and `UnmarshalZserio` makes the same object of what
was written.

Missing: packed arrays of objects and of types that have not every value of their Go type; bit fields wider than their Go type, alignments above 255 bits. -/
theorem C102_objects_partial {schema : Nat → Decl} (hw : ∀ i, (schema i).Wf) (hk : ∀ i, (schema i).Kept) (n name : Nat) (old v : Val) (s s' : RState)
    (h : rrun ((methods schema n name).unmarshal old) s = (.ok v, s')) :
    RoundTrip ((methods schema n name).marshal v) ((methods schema n name).unmarshal old) v :=
  (schema_laws schema hw n name).1 _ _ ((schema_yields hw hk n).1 name old s v s' h)

/-- **C102** for bytes: if `Unmarshal` accepts some bytes, `Marshal` of the object succeeds, and `Unmarshal` of its result, with any bytes after it, makes the
same object.

Missing: the same as above, all packed arrays, alignments above 248 bits. -/
theorem C102_bytes_partial {schema : Nat → Decl} (hw : ∀ i, (schema i).Wf) (hk : ∀ i, (schema i).Kept) (hu : ∀ i, Wire.Unpacked (schema i))
    (hn : ∀ i, ∀ f ∈ (schema i).allFields, f.align ≤ 248)
    (n name : Nat) (old v : Val) (input : List Byte) (h : unmarshal input ((methods schema n name).unmarshal old) = .ok v) :
    ∃ bytes, marshal ((methods schema n name).marshal v) = .ok bytes ∧ ∀ t, unmarshal (bytes ++ t) ((methods schema n name).unmarshal old) = .ok v := by
  have wide : ∀ k : Elem, k.Wf → k.Positive ∧ k.Narrow := fun k hk => by
    cases k with
    | bits w m => exact ⟨hk.1, by have := hk.2; show m ≤ 248; omega⟩
    | sbits w m => exact ⟨hk.1, by have := hk.2; show m ≤ 248; omega⟩
    | _ => exact ⟨trivial, trivial⟩
  have enum : ∀ i k, schema i = .enum k → k.Wf := fun i k e => by
    have := hw i
    rw [e] at this
    exact this.1
  have hp : ∀ i, (schema i).Positive := fun i =>
    ⟨fun f hf k e env => (wide _ ((hk i f hf).2.2 k e env)).1, fun k e => (wide k (enum i k e)).1⟩
  have hnr : ∀ i, (schema i).Narrow := fun i =>
    ⟨fun f hf => ⟨hn i f hf, fun k e env => (wide _ ((hk i f hf).2.2 k e env)).2⟩, fun k e => (wide k (enum i k e)).2⟩
  have hg := (objects_good hu hp n name old).safe
  refine C10_roundtrip _ _ v (objects_safe hu hnr n name v) hg ?_
  unfold unmarshal at h
  rw [C11_reader_partial _ hg] at h
  exact C102_objects_partial hw hk n name old v _ _ (Prod.ext h rfl)

theorem exStreamed_kept (i : Nat) : (exStreamed i).Kept := by
  rcases i with _ | _ | i
  · intro f hf
    simp only [exStreamed, Decl.allFields, List.mem_cons, List.not_mem_nil, or_false] at hf
    rcases hf with rfl | rfl | rfl | rfl <;>
      exact ⟨by decide, nofun, fun k hk env => by cases hk <;> trivial⟩
  · intro f hf
    simp only [exStreamed, Decl.allFields, List.mem_cons, List.not_mem_nil, or_false] at hf
    rcases hf with rfl | rfl <;>
      exact ⟨by decide, nofun, fun k hk env => by cases hk; trivial⟩
  · exact nofun

/-- Bytes that `Marshal` does not make: the 3 of the union takes two bytes, padding and the bits after the object are ones.  They are accepted, and what
`Marshal` makes of the object is read as the same object. -/
def exStreamedOther : List Byte := [0xff#8, 0x80#8, 0xb0#8, 0x81#8, 0x40#8, 0x50#8, 0x00#8, 0x7f#8]

example : ∃ v bytes, unmarshal exStreamedOther ((methods exStreamed 2 0).unmarshal exStreamedOld) = .ok v ∧
    marshal ((methods exStreamed 2 0).marshal v) = .ok bytes ∧ bytes ≠ exStreamedOther ∧
    ∀ t, unmarshal (bytes ++ t) ((methods exStreamed 2 0).unmarshal exStreamedOld) = .ok v := by
  have h : unmarshal exStreamedOther ((methods exStreamed 2 0).unmarshal exStreamedOld) = .ok exStreamedVal := Val.ok_of_beq (by decide +kernel)
  obtain ⟨bytes, h1, h2⟩ := C102_bytes_partial exStreamed_wf exStreamed_kept exStreamed_unpacked (fun i f hf => ((exStreamed_narrow i).1 f hf).1) 2 0 _ _ _ h
  refine ⟨_, bytes, h, h1, fun e => ?_, h2⟩
  rw [e] at h1
  exact absurd h1 (by decide +kernel)

/-- `struct S { packed uint8 a[3]; };` -/
def exAgainBytes : Nat → Decl := fun _ => .struct [⟨fun _ => { active := true, width := none, len := some 3, args := none }, 0, false,
  .prim (.bits 8 8), some true, false⟩]

/-- Differences of 9 bits: 200, then 100 more, which is 44 in a `uint8`, then 0 more.  The object is written and read again. -/
example : ∃ v s', rrun ((methods exAgainBytes 1 0).unmarshal (.obj 0 [] [.list []]))
      ⟨[true] ++ Wire.msb 6 8 ++ Wire.msb 8 200 ++ Wire.msb 9 100 ++ Wire.msb 9 0, 0⟩ = (.ok v, s') ∧
    v = .obj 0 [] [.list [.bits 8 200#8, .bits 8 44#8, .bits 8 44#8]] ∧
    RoundTrip ((methods exAgainBytes 1 0).marshal v) ((methods exAgainBytes 1 0).unmarshal (.obj 0 [] [.list []])) v := by
  have h : (rrun ((methods exAgainBytes 1 0).unmarshal (.obj 0 [] [.list []]))
      ⟨[true] ++ Wire.msb 6 8 ++ Wire.msb 8 200 ++ Wire.msb 9 100 ++ Wire.msb 9 0, 0⟩).1 = .ok (.obj 0 [] [.list [.bits 8 200#8, .bits 8 44#8, .bits 8 44#8]]) :=
    Val.ok_of_beq (by decide +kernel)
  refine ⟨_, _, Prod.ext h rfl, rfl, C102_objects_partial (schema := exAgainBytes) (fun _ => ⟨fun _ _ _ _ => rfl, trivial⟩) (fun _ f hf => ?_) 1 0 _ _ _ _ (Prod.ext h rfl)⟩
  obtain rfl := List.mem_singleton.1 hf
  exact ⟨by decide, fun _ => ⟨_, rfl, fun _ => rfl⟩, fun k hk env => by cases hk; exact (by decide : 1 ≤ 8 ∧ 8 ≤ 8 ∧ 8 ≤ 64)⟩

/-- `struct S { packed bit:4 a[2]; };` -/
def exAgainPacked : Nat → Decl := fun _ => .struct [⟨fun _ => { active := true, width := none, len := some 2, args := none }, 0, false,
  .prim (.bits 8 4), some true, false⟩]

/-- **C102** is false for packed arrays of bit fields: the difference after 15 may be 5, so that a `bit:4` becomes 20.  `Marshal` does not pack the two
elements, writes the low four bits of 20 without an error, and 4 is read. -/
theorem C102_violated_packed :
    unmarshal [0x8b#8, 0xe2#8, 0x80#8] ((methods exAgainPacked 1 0).unmarshal (.obj 0 [] [.list []])) =
      .ok (.obj 0 [] [.list [.bits 8 15#8, .bits 8 20#8]]) ∧
    marshal ((methods exAgainPacked 1 0).marshal (.obj 0 [] [.list [.bits 8 15#8, .bits 8 20#8]])) = .ok [0x7a#8, 0x00#8] ∧
    unmarshal [0x7a#8, 0x00#8] ((methods exAgainPacked 1 0).unmarshal (.obj 0 [] [.list []])) =
      .ok (.obj 0 [] [.list [.bits 8 15#8, .bits 8 4#8]]) :=
  ⟨Val.ok_of_beq (by decide +kernel), by decide +kernel, Val.ok_of_beq (by decide +kernel)⟩

end Verif
