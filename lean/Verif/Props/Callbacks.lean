import Verif.Callbacks
import Verif.Props.Array

/-!
# Offset callbacks are told where elements begin (C86)
-/

namespace Verif

/-- Behind the bits `s`, elements are written on the next byte each, with zeros before them: `starts` are the positions of their first
bits, and `t` is all that is written in the end.  `wrote e s b` says that `b` are the bits of element `e` behind `s`. -/
inductive Laid {T : Type} (wrote : T → List Bool → List Bool → Prop) : List Bool → List T → List Nat → List Bool → Prop
  | done (s : List Bool) : Laid wrote s [] [] s
  | next (s t : List Bool) (zeros : Nat) (e : T) (es : List T) (b : List Bool) (starts : List Nat) (h7 : zeros < 8)
      (h8 : 8 ∣ s.length + zeros) (he : wrote e (s ++ List.replicate zeros false) b)
      (h : Laid wrote (s ++ List.replicate zeros false ++ b) es starts t) :
    Laid wrote s (e :: es) ((s.length + zeros) :: starts) t

/-- The calls with these positions, in order. -/
def numbered : Nat → List Nat → List (Nat × Nat)
  | _, [] => []
  | i, p :: ps => (i, p) :: numbered (i + 1) ps

variable {T : Type}

/-- The bits of an element of an array that is not packed are those of the element.  (What a packed array writes for an element is the
subject of C18 and C19.) -/
def BitsOf (tr : Traits T) (packed : Bool) (e : T) (s b : List Bool) : Prop :=
  packed = false → Writes (tr.write e) s b

theorem aligned_rt (s : List Bool) : ∃ zeros, zeros < 8 ∧ 8 ∣ s.length + zeros ∧
    wrun (alignW 8) s = (.ok (s.length + zeros), s ++ List.replicate zeros false) ∧
    Reads (alignR 8) (List.replicate zeros false) s.length (s.length + zeros) ∧
    Writes (offsetAlignW true) s (List.replicate zeros false) ∧ Reads (offsetAlignR true) (List.replicate zeros false) s.length () := by
  obtain ⟨h1, h2, -⟩ := padBits_spec (pos := s.length) (b := 8) (by omega)
  refine ⟨padBits s.length 8, h2, h1, wrun_alignW (by omega) (by omega) s, ?_, ?_, ?_⟩
  · intro rest
    rw [rrun_alignR (by omega) (by omega) _ _ _ List.length_replicate, List.length_replicate]
  · unfold Writes offsetAlignW
    rw [if_pos rfl, wrun_bind, wrun_alignW (by omega) (by omega)]
    rfl
  · intro rest
    unfold offsetAlignR
    rw [if_pos rfl, rrun_bind, rrun_alignR (by omega) (by omega) _ _ _ List.length_replicate]
    rfl

theorem plain_calls {tr : Traits T} {ok : T → Prop} (hrt : tr.RT ok) (es : List T) (hok : ∀ e ∈ es, ok e) :
    ∀ (i : Nat) (s : List Bool), ∃ out starts,
      wrun (Arr.plainCalls tr i es) s = (.ok (numbered i starts), s ++ out) ∧ Writes (Arr.plainLoop tr true es) s out ∧
      Reads (Arr.plainReadCalls tr i es.length) out s.length (es, numbered i starts) ∧
      Laid (BitsOf tr false) s es starts (s ++ out) := by
  induction es with
  | nil => exact fun i s => ⟨[], [], by simp [Arr.plainCalls, wrun_pure, numbered], Writes.pure s, Reads.pure _ _, by simpa using Laid.done s⟩
  | cons e es ih =>
    intro i s
    obtain ⟨z, z1, z2, z3, z4, z5, -⟩ := aligned_rt s
    obtain ⟨o1, a1, a2⟩ := hrt e (hok e (by simp)) (s ++ List.replicate z false)
    obtain ⟨o2, starts, b1, b2, b3, b4⟩ := ih (fun x hx => hok x (by simp [hx])) (i + 1) (s ++ List.replicate z false ++ o1)
    refine ⟨List.replicate z false ++ (o1 ++ o2), (s.length + z) :: starts, ?_, z5.bind (a1.dropErr.bind b2), ?_, ?_⟩
    · unfold Arr.plainCalls
      rw [wrun_bind, z3]
      dsimp only
      rw [wrun_bind, a1.dropErr]
      dsimp only
      rw [wrun_bind, b1]
      simp [wrun_pure, numbered]
    · refine z4.bind ?_
      rw [List.length_append] at a2
      refine a2.bind ?_
      rw [List.length_append, List.length_append] at b3
      intro rest
      rw [rrun_bind, b3]
      rfl
    · refine .next _ _ z _ _ o1 _ z1 z2 (fun _ => a1) ?_
      simpa using b4

theorem packed_calls {tr : Traits T} {ok : T → Prop} (hrt : tr.RT ok) (hrec : tr.Recover ok) (es : List T) (hok : ∀ e ∈ es, ok e) :
    ∀ (i : Nat) (cw cr : DCtx), Sync tr cw cr es → ∀ (s : List Bool), ∃ out starts cw',
      WM.run (Arr.packedCalls tr i es cw) s = (.ok (numbered i starts), s ++ out) ∧
      WM.run (Arr.packedLoop tr true es cw) s = ((.ok (), cw'), s ++ out) ∧
      Reads (Arr.packedReadCalls tr i es.length cr) out s.length (es, numbered i starts) ∧
      Laid (BitsOf tr true) s es starts (s ++ out) := by
  induction es with
  | nil =>
    exact fun i cw cr _ s => ⟨[], [], cw, by simp [Arr.packedCalls, WM.run_pure, numbered], by simp [Arr.packedLoop, WM.run_pure],
      Reads.pure _ _, by simpa using Laid.done s⟩
  | cons e es ih =>
    intro i cw cr hs s
    obtain ⟨z, z1, z2, z3, z4, z5, -⟩ := aligned_rt s
    obtain ⟨o1, cw1, cr1, a1, a2, a3⟩ := sync_step hrt hrec (hok e (by simp)) hs (s ++ List.replicate z false)
    obtain ⟨o2, starts, cw2, b1, b2, b3, b4⟩ :=
      ih (fun x hx => hok x (by simp [hx])) (i + 1) cw1 cr1 a3 (s ++ List.replicate z false ++ o1)
    refine ⟨List.replicate z false ++ (o1 ++ o2), (s.length + z) :: starts, cw2, ?_, ?_, ?_, ?_⟩
    · unfold Arr.packedCalls
      rw [WM.run_bind]
      unfold wrun at z3
      rw [z3]
      dsimp only
      rw [WM.run_bind, a1]
      dsimp only
      rw [WM.run_bind, b1]
      simp [WM.run_pure, numbered, Except.map]
    · unfold Arr.packedLoop
      rw [WM.run_bind]
      unfold Writes wrun at z5
      rw [z5]
      dsimp only
      rw [WM.run_bind, a1]
      dsimp only
      rw [b2]
      simp
    · refine z4.bind ?_
      rw [List.length_append] at a2
      refine a2.bind ?_
      rw [List.length_append, List.length_append] at b3
      dsimp only
      intro rest
      rw [rrun_bind, b3]
      rfl
    · refine .next _ _ z _ _ o1 _ z1 z2 (fun h => by cases h) ?_
      simpa using b4

/-- **C86**: the callback of an array is called once for each element, in order, when the array is written and when it is read, both
times with the position of the first bit of the element, which is on a byte.  The bits are those that are written with the callback
set (with or without knowing what the callback does). -/
theorem C86_positions {tr : Traits T} {ok : T → Prop} (hrt : tr.RT ok) (cfg : ArrCfg) (hc : cfg.hasCheck = true)
    (hrec : cfg.isPacked = true → tr.Recover ok) (es : List T) (hok : ∀ e ∈ es, ok e) (hlen : LenOk cfg es.length) (s : List Bool) :
    ∃ len out starts, wrun (Arr.marshalCalls tr cfg es) s = (.ok (numbered 0 starts), s ++ (len ++ out)) ∧
      Writes (Arr.marshalW tr cfg es) s (len ++ out) ∧
      Reads (Arr.unmarshalCalls tr cfg) (len ++ out) s.length (es, numbered 0 starts) ∧
      Writes (Arr.header cfg es.length) s len ∧ Laid (BitsOf tr cfg.isPacked) (s ++ len) es starts (s ++ len ++ out) := by
  obtain ⟨a, _, _, a1, a2⟩ := header_rt hlen s
  cases hp : cfg.isPacked with
  | false =>
    obtain ⟨b, starts, b1, b2, b3, b4⟩ := plain_calls hrt es hok 0 (s ++ a)
    refine ⟨a, b, starts, ?_, marshalW_writes a1 (fun h => by rw [hp] at h; simp at h) (fun _ _ => hc ▸ b2) ?_, ?_, a1, b4⟩
    · unfold Arr.marshalCalls
      rw [wrun_bind, a1]
      dsimp only
      cases es with
      | nil =>
        simp only [Arr.plainCalls, wrun_pure, Prod.mk.injEq, Except.ok.injEq] at b1
        simp only [List.isEmpty_nil, if_true, wrun_pure]
        rw [← b1.1, List.self_eq_append_right.1 b1.2]
        simp
      | cons e es =>
        rw [if_neg (c := (e :: es).isEmpty = true) (by simp), hp, if_neg (by decide), b1]
        simp
    · rintro rfl
      exact b2.unique (Writes.pure _)
    · unfold Arr.unmarshalCalls
      refine a2.bind ?_
      rw [hp, if_neg (by decide)]
      rwa [List.length_append] at b3
  | true =>
    obtain ⟨b, starts, c, b1, b2, b3, b4⟩ := packed_calls hrt (hrec hp) es hok 0 _ _ (sync_init tr es) (s ++ a)
    refine ⟨a, b, starts, ?_, marshalW_writes a1 (fun _ _ => ⟨c, hc ▸ b2⟩) (fun h => by rw [hp] at h; simp at h) ?_, ?_, a1, b4⟩
    · unfold Arr.marshalCalls
      rw [wrun_bind, a1]
      dsimp only
      cases es with
      | nil =>
        simp only [Arr.packedCalls, WM.run_pure, Prod.mk.injEq, Except.ok.injEq] at b1
        simp only [List.isEmpty_nil, if_true, wrun_pure]
        rw [← b1.1, List.self_eq_append_right.1 b1.2]
        simp
      | cons e es =>
        rw [if_neg (c := (e :: es).isEmpty = true) (by simp), hp, if_pos rfl]
        show WM.run (Arr.packedCalls tr 0 (e :: es) _) (s ++ a) = _
        rw [b1]
        simp
    · rintro rfl
      have : (s ++ a ++ b) = s ++ a := (congrArg Prod.snd b2).symm
      simpa using this
    · unfold Arr.unmarshalCalls
      refine a2.bind ?_
      rw [hp, if_pos rfl]
      rwa [List.length_append] at b3

theorem plainCalls_numbered (tr : Traits T) (es : List T) : ∀ (i : Nat) (s : List Bool) (calls : Calls),
    (wrun (Arr.plainCalls tr i es) s).1 = .ok calls → calls.map Prod.fst = List.range' i es.length := by
  induction es with
  | nil =>
    intro i s calls h
    cases h
    rfl
  | cons e es ih =>
    intro i s calls h
    unfold Arr.plainCalls at h
    rw [wrun_bind] at h
    split at h
    · rw [wrun_bind] at h
      split at h
      · rw [wrun_bind] at h
        split at h
        · rename_i _ s' _ _ c s'' hc
          rw [wrun_pure] at h
          injection h with h
          subst h
          have := ih (i + 1) s' c (by rw [hc])
          simp [List.range'_succ, this]
        · cases h
      · cases h
    · cases h

theorem packedCalls_numbered (tr : Traits T) (es : List T) : ∀ (i : Nat) (c : DCtx) (s : List Bool) (calls : Calls),
    (WM.run (Arr.packedCalls tr i es c) s).1 = .ok calls → calls.map Prod.fst = List.range' i es.length := by
  induction es with
  | nil =>
    intro i c s calls h
    cases h
    rfl
  | cons e es ih =>
    intro i c s calls h
    have rest : ∀ (c : DCtx) (count : Nat) (s : List Bool),
        (WM.run (WM.bind (Arr.packedCalls tr (i + 1) es c) fun r => WM.pure (r.map ((i, count) :: ·))) s).1 = .ok calls →
        calls.map Prod.fst = List.range' i (es.length + 1) := by
      intro c count s h
      rw [WM.run_bind] at h
      have hr := ih (i + 1) c s
      revert h hr
      cases hw : WM.run (Arr.packedCalls tr (i + 1) es c) s with
      | mk a s' =>
        cases a with
        | error x => intro h; cases h
        | ok cs =>
          intro h hr
          cases h
          simp [List.range'_succ, hr cs rfl]
    unfold Arr.packedCalls at h
    rw [WM.run_bind] at h
    split at h
    · cases h
    · rw [WM.run_bind] at h
      split at h
      · split at h
        · cases h
        · exact rest _ _ _ h
      · exact rest _ _ _ h

/-- **C86**: whatever elements are, also those that cannot be written, a callback of an array that is written is called once for each of them, with
the indexes from 0 on. -/
theorem C86_numbered (tr : Traits T) (cfg : ArrCfg) (es : List T) (s : List Bool) (calls : Calls)
    (h : (wrun (Arr.marshalCalls tr cfg es) s).1 = .ok calls) : calls.map Prod.fst = List.range es.length := by
  unfold Arr.marshalCalls at h
  rw [wrun_bind] at h
  rw [List.range_eq_range']
  split at h
  · split at h
    · rename_i he
      cases es with
      | nil => cases h; rfl
      | cons => cases he
    · split at h
      · exact packedCalls_numbered tr es 0 _ _ _ h
      · exact plainCalls_numbered tr es 0 _ _ h
  · cases h

/-- All positions are on a byte and in order, and there is one for each element. -/
theorem C86_ordered {wrote : T → List Bool → List Bool → Prop} {s t : List Bool} {es : List T} {starts : List Nat}
    (h : Laid wrote s es starts t) :
    (∀ p ∈ starts, 8 ∣ p ∧ s.length ≤ p) ∧ starts.Pairwise (· ≤ ·) ∧ starts.length = es.length := by
  induction h with
  | done s => simp
  | next s t z e es b starts h7 h8 he h ih =>
    obtain ⟨h1, h2, h3⟩ := ih
    refine ⟨?_, List.pairwise_cons.2 ⟨fun p hp => ?_, h2⟩, by simp [h3]⟩
    · intro p hp
      rcases List.mem_cons.1 hp with rfl | hp
      · exact ⟨h8, by omega⟩
      · have := h1 p hp
        simp at this
        exact ⟨this.1, by omega⟩
    · have := (h1 p hp).2
      simp at this
      omega

/-! ## Cases -/

/-- Two 3 bit fields behind one bit and the length: they begin at bits 16 and 24. -/
example : wrun (Arr.marshalCalls (bitFieldTraits 8 3) ⟨0, true, false, false, true⟩ [5#8, 6#8]) [true] =
    (.ok [(0, 16), (1, 24)],
      [true] ++ natBits 8 2 ++ List.replicate 7 false ++ natBits 3 5 ++ List.replicate 5 false ++ natBits 3 6) := by
  decide +kernel

/-- The theorem for a packed array. -/
example (s : List Bool) : ∃ len out starts, wrun (Arr.marshalCalls varIntTraits ⟨0, true, true, false, true⟩ [minInt64, 5#64, -1#64]) s =
      (.ok (numbered 0 starts), s ++ (len ++ out)) ∧
    Reads (Arr.unmarshalCalls varIntTraits ⟨0, true, true, false, true⟩) (len ++ out) s.length ([minInt64, 5#64, -1#64], numbered 0 starts) := by
  obtain ⟨len, out, starts, h1, -, h3, -⟩ := C86_positions (Elem.rt .varint trivial) ⟨0, true, true, false, true⟩ rfl
    (fun _ => Elem.recover .varint trivial trivial) [minInt64, 5#64, -1#64] (fun _ _ => trivial) (by unfold LenOk; decide) s
  exact ⟨len, out, starts, h1, h3⟩

end Verif
