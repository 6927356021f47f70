import Verif.Props.ObjectText

/-! # C12 and C13 from the text of a schema -/

namespace Verif

/-- **C12** from the text of a schema: bytes behind an object make no difference for the generated code.

Missing: as for `C90_schema_partial`, packed arrays (`C12_violated_packed`), alignments above 248, and computed widths that are 0 or above 248. -/
theorem C12_text_partial {p : CPackage} {s : List Char} (ht : TextOf p s) (hc : Closed p) {ds : List Decl} (hm : SchemaMeans p ds)
    (hp : ∀ D ∈ ds, Wire.Unpacked D) (hb : ∀ D ∈ ds, D.Bytewise) :
    ∃ code, compileText s = some code ∧ ∀ (n name : Nat) (old v : Val) (b : List Byte),
      unmarshal b ((methods (byNumber code) n name).unmarshal old) = .ok v →
      ∀ t, unmarshal (b ++ t) ((methods (byNumber code) n name).unmarshal old) = .ok v := by
  refine ⟨ds, C90_schema_partial ht hc hm, fun n name old v b h t => ?_⟩
  refine C12_bytes_partial (fun i => ?_) (fun i => ?_) n name old v b t h
  · exact byNumber_all (Q := Wire.Unpacked) hp (fun _ h => by cases h) i
  · exact byNumber_all (Q := Decl.Positive) (fun D hD => (hm.widths D hD).positive (hb D hD)) ⟨nofun, nofun⟩ i

/-- **C13** from the text of a schema: the generated code reports an error for an input that ends before the object does.

Missing: as above; packed arrays violate it (`C13_packed_violates`). -/
theorem C13_text_partial {p : CPackage} {s : List Char} (ht : TextOf p s) (hc : Closed p) {ds : List Decl} (hm : SchemaMeans p ds)
    (hp : ∀ D ∈ ds, Wire.Unpacked D) (hb : ∀ D ∈ ds, D.Bytewise) :
    ∃ code, compileText s = some code ∧ ∀ (n name : Nat) (old v : Val) (b b' : List Byte) (st : RState),
      rrun ((methods (byNumber code) n name).unmarshal old) ⟨bytesBits b, 0⟩ = (.ok v, st) → b' <+: b → 8 * b'.length < st.pos →
      ∃ e, unmarshal b' ((methods (byNumber code) n name).unmarshal old) = .error e := by
  refine ⟨ds, C90_schema_partial ht hc hm, fun n name old v b b' st h => ?_⟩
  refine C13_bytes_partial (fun i => ?_) (fun i => ?_) n name old v b b' st h
  · exact byNumber_all (Q := Wire.Unpacked) hp (fun _ h => by cases h) i
  · exact byNumber_all (Q := Decl.Positive) (fun D hD => (hm.widths D hD).positive (hb D hD)) ⟨nofun, nofun⟩ i

/-- Both for the text of `ObjectText` and its eight bytes. -/
example : ∃ code, compileText (piecesText (spaced exGenerateTokens)) = some code ∧
    (∀ t, unmarshal (exGeneratedBytes ++ t) ((methods (byNumber code) 2 1).unmarshal exGeneratedOld) = .ok exGeneratedVal) ∧
    ∀ b, b <+: exGeneratedBytes → b.length < 8 → ∃ e, unmarshal b ((methods (byNumber code) 2 1).unmarshal exGeneratedOld) = .error e := by
  obtain ⟨code, h1, h2⟩ := C12_text_partial exGenerate_text exGenerate_closed exGenerate_means exGenerated_unpacked exGenerated_bytewise
  obtain rfl : code = exGenerated := Option.some.inj (h1.symm.trans exGenerate_compiles)
  obtain ⟨code, h3, h4⟩ := C13_text_partial exGenerate_text exGenerate_closed exGenerate_means exGenerated_unpacked exGenerated_bytewise
  obtain rfl : code = exGenerated := Option.some.inj (h3.symm.trans exGenerate_compiles)
  have hr : unmarshal exGeneratedBytes ((methods (byNumber exGenerated) 2 1).unmarshal exGeneratedOld) = .ok exGeneratedVal := Val.ok_of_beq (by decide +kernel)
  have hv : (rrun ((methods (byNumber exGenerated) 2 1).unmarshal exGeneratedOld) ⟨bytesBits exGeneratedBytes, 0⟩).1 = .ok exGeneratedVal :=
    Val.ok_of_beq (by decide +kernel)
  have hpos : (rrun ((methods (byNumber exGenerated) 2 1).unmarshal exGeneratedOld) ⟨bytesBits exGeneratedBytes, 0⟩).2.pos = 63 := by decide +kernel
  refine ⟨_, h1, h2 2 1 _ _ _ hr, fun b hb hs => h4 2 1 _ _ _ b _ (Prod.ext hv rfl) hb ?_⟩
  show 8 * b.length < (rrun ((methods (byNumber exGenerated) 2 1).unmarshal exGeneratedOld) ⟨bytesBits exGeneratedBytes, 0⟩).2.pos
  rw [hpos]
  omega

end Verif
