import Verif.Elem

/-!
# C18, C19: delta packing of a sequence
-/

namespace Verif

/-- C18 for any traits whose elements survive `Write`/`Read` and `AsUint64`/`FromUint64`. -/
theorem C18_roundtrip {T : Type} (tr : Traits T) (ok : T → Prop) (hrt : tr.RT ok) (hrec : tr.Recover ok) (es : List T)
    (hok : ∀ e ∈ es, ok e) (s : List Bool) :
    ∃ out c, WM.run (DCtx.writeAll tr es (DCtx.initAll tr es)) s = ((.ok (), c), s ++ out) ∧
      Reads (DCtx.readAll tr es.length DCtx.new) out s.length es :=
  writeAll_eq_packedLoop hrt hrec es hok _ _ (sync_init tr es) s

/-- C18: every integer or boolean traits of the package, every sequence of values in range, every position. -/
theorem C18_integers (k : Elem) (hk : k.Wf) (hi : k.IntLike) (es : List k.T) (hok : ∀ e ∈ es, k.Ok e) (s : List Bool) :
    ∃ out c, WM.run (DCtx.writeAll k.traits es (DCtx.initAll k.traits es)) s = ((.ok (), c), s ++ out) ∧
      Reads (DCtx.readAll k.traits es.length DCtx.new) out s.length es :=
  C18_roundtrip k.traits k.Ok (k.rt hk) (k.recover hk hi) es hok s

/-- Both modes occur: ten equal uint16 are packed (7 bits of descriptor, 16 bits, nothing else)… -/
example : (WM.run (DCtx.writeAll (bitFieldTraits 16 16) (List.replicate 10 7#16)
    (DCtx.initAll (bitFieldTraits 16 16) (List.replicate 10 7#16))) []).2 =
    true :: natBits 6 0 ++ natBits 16 7 := by decide +kernel
/-- …and a single element is not. -/
example : (WM.run (DCtx.writeAll (bitFieldTraits 16 16) [7#16] (DCtx.initAll (bitFieldTraits 16 16) [7#16])) []).2 =
    false :: natBits 16 7 := by decide +kernel
example : ∃ out c, WM.run (DCtx.writeAll (Elem.sbits 8 5).traits [(-16#8 : BitVec 8), 15#8, 0#8, -1#8]
      (DCtx.initAll (Elem.sbits 8 5).traits [(-16#8 : BitVec 8), 15#8, 0#8, -1#8])) [true] = ((.ok (), c), [true] ++ out) ∧
      Reads (DCtx.readAll (Elem.sbits 8 5).traits 4 DCtx.new) out 1 [(-16#8 : BitVec 8), 15#8, 0#8, -1#8] :=
  C18_integers (.sbits 8 5) (by unfold Elem.Wf; decide) trivial _
    (show ∀ e ∈ [(-16#8 : BitVec 8), 15#8, 0#8, -1#8], SignedFits e.toInt 5 by decide) [true]

/-! ## C19 -/

theorem writeAll_prefix {T : Type} (tr : Traits T) (es : List T) (c : DCtx) (s : List Bool) :
    s <+: (WM.run (DCtx.writeAll tr es c) s).2 := WM.run_prefix _ s

/-- The first bit written says whether the sequence is packed. -/
theorem first_bit {T : Type} (tr : Traits T) (e : T) (es : List T) (s : List Bool) :
    s ++ [({ DCtx.initAll tr (e :: es) with started := true } : DCtx).finishInit.isPacked] <+:
      (WM.run (DCtx.writeAll tr (e :: es) (DCtx.initAll tr (e :: es))) s).2 := by
  obtain ⟨_, _, _, h4, _, _⟩ := initAll_spec tr e es
  unfold DCtx.writeAll
  rw [WM.run_bind]
  refine List.IsPrefix.trans ?_ (WM.run_prefix _ _)
  unfold DCtx.write
  rw [if_pos (by rw [h4]; rfl)]
  dsimp only
  rw [WM.run_bind]
  refine List.IsPrefix.trans ?_ (WM.run_prefix _ _)
  unfold DCtx.writeDescriptor
  show _ <+: (wrun _ s).2
  rw [wrun_bind, wrun_bool]
  dsimp only
  exact WM.run_prefix _ _

/-- C19: with a traits that reports exact element sizes, the number of bits written is the sum of what `BitSizeOf`
reports and at most one more than the unpacked sizes; the first bit is set exactly when all deltas fit 62 bits and the
packed form is strictly smaller than the unpacked one. -/
theorem C19_size {T : Type} (tr : Traits T) (ok : T → Prop) (hex : tr.Exact ok) (es : List T) (hok : ∀ e ∈ es, ok e)
    (s : List Bool) :
    ∃ out c, WM.run (DCtx.writeAll tr es (DCtx.initAll tr es)) s = ((.ok (), c), s ++ out) ∧
      out.length = DCtx.sizeAll tr es (DCtx.initAll tr es) ∧
      out.length ≤ 1 + (es.map tr.bitSizeOf).sum ∧
      ∀ e es', es = e :: es' →
        (out.head? = some true ↔ PackingPays tr e es') ∧
        (PackingPays tr e es' → out.length < 1 + (es.map tr.bitSizeOf).sum) ∧
        (¬ PackingPays tr e es' → out.length = 1 + (es.map tr.bitSizeOf).sum) := by
  obtain ⟨out, c, h1, h2⟩ := size_all hex es hok _ _ (sizeInv_init tr es) s
  refine ⟨out, c, h1, h2, ?_, ?_⟩
  · cases es with
    | nil => rw [h2]; simp [DCtx.sizeAll]
    | cons e es =>
      rw [h2, sizeAll_initAll]
      split
      · rename_i hp; exact Nat.le_of_lt hp.2
      · exact Nat.le_refl _
  · rintro e es' rfl
    refine ⟨?_, fun hp => ?_, fun hp => ?_⟩
    · have hb := first_bit tr e es' s
      rw [h1] at hb
      dsimp only at hb
      have hb' := (List.prefix_append_right_inj s).mp hb
      obtain ⟨t, ht⟩ := hb'
      rw [← ht]
      simp only [List.singleton_append, List.head?_cons, Option.some.injEq]
      exact (finish_initAll tr e es').2.1
    · rw [h2, sizeAll_initAll, if_pos hp]; exact hp.2
    · rw [h2, sizeAll_initAll, if_neg hp]

/-- C19 for the traits of the package, on the values whose own size they report correctly. -/
theorem C19_elements (k : Elem) (hk : k.Wf) (es : List k.T) (hok : ∀ e ∈ es, k.SizeOk e) (s : List Bool) :
    ∃ out c, WM.run (DCtx.writeAll k.traits es (DCtx.initAll k.traits es)) s = ((.ok (), c), s ++ out) ∧
      out.length = DCtx.sizeAll k.traits es (DCtx.initAll k.traits es) ∧
      out.length ≤ 1 + (es.map k.traits.bitSizeOf).sum := by
  obtain ⟨out, c, h1, h2, h3, _⟩ := C19_size k.traits k.SizeOk (k.exact hk) es hok s
  exact ⟨out, c, h1, h2, h3⟩

/-- C19: the spread is what it says: the least number of bits in which every distance of neighbours fits. -/
theorem C19_spread (p : Nat) (xs : List Nat) (m : Nat) : spread p xs ≤ m ↔ Chain m p xs := by
  constructor
  · exact chain_of_spread
  · intro h
    induction xs generalizing p with
    | nil => exact Nat.zero_le _
    | cons x xs ih => exact Nat.max_le.mpr ⟨Nat.size_le.mpr h.1, ih x h.2⟩

/-- C19: `BitSizeOf` marks the context as started, so asking for the size of the first element before writing it on
the same context loses the descriptor. -/
theorem C19_size_then_write :
    let tr := bitFieldTraits 8 8
    let c := (DCtx.bitSizeOf tr (DCtx.initAll tr [5#8]) 5#8).2
    WM.run (DCtx.write tr 5#8 c) [] = ((.ok (), { c with prev := some 5#64 }), natBits 8 5) := by decide +kernel

example : PackingPays (bitFieldTraits 8 8) 5#8 [6#8, 5#8] := by unfold PackingPays; decide +kernel
example : ¬ PackingPays (bitFieldTraits 8 8) 5#8 [200#8] := by unfold PackingPays; decide +kernel

end Verif
