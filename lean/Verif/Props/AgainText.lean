import Verif.Props.Again
import Verif.Props.ObjectText

/-! # C102 from the text of a schema -/

namespace Verif

/-- Alignments of at most 248 bits, computed widths that fit the Go type of the field, and no packed arrays. -/
def Decl.Usable (D : Decl) : Prop := ∀ f ∈ D.allFields, f.align ≤ 248 ∧ f.arr ≠ some true ∧
  ∀ k, f.ty = .prim k → ∀ env n, (f.exprs env).width = some n → (k.withWidth (some n)).Wf

theorem Decl.WidthsGiven.kept {D : Decl} (h : D.WidthsGiven) (hb : D.Usable) : D.Kept := fun f hf => by
  obtain ⟨h1, h2, h3⟩ := hb f hf
  refine ⟨by omega, fun e => absurd e h2, fun k hk env => ?_⟩
  rcases h.1 f hf k hk env with ⟨e, hw⟩ | ⟨n, e⟩
  · have e' : (f.exprs env).width = Option.none := e
    rw [e']
    cases k <;> exact hw
  · have e' : (f.exprs env).width = some n := e
    rw [e']
    exact h3 k hk env n e'

/-- **C102** from the text of a schema: if the generated code accepts some bytes, it makes bytes of the object, and makes the same object of them, whatever
follows them.

Missing: as for `C90_schema_partial`, packed arrays, alignments above 248, and computed widths that are 0 or above the width of the Go type. -/
theorem C102_text_partial {p : CPackage} {s : List Char} (ht : TextOf p s) (hc : Closed p) {ds : List Decl} (hm : SchemaMeans p ds)
    (hb : ∀ D ∈ ds, D.Usable) :
    ∃ code, compileText s = some code ∧ ∀ (n name : Nat) (old v : Val) (input : List Byte),
      unmarshal input ((methods (byNumber code) n name).unmarshal old) = .ok v →
      ∃ bytes, marshal ((methods (byNumber code) n name).marshal v) = .ok bytes ∧
        ∀ t, unmarshal (bytes ++ t) ((methods (byNumber code) n name).unmarshal old) = .ok v := by
  refine ⟨ds, C90_schema_partial ht hc hm, fun n name old v input h => ?_⟩
  refine C102_bytes_partial (fun i => ?_) (fun i => ?_) (fun i => ?_) (fun i => ?_) n name old v input h
  · exact byNumber_all (Q := Decl.Wf) (fun D hD => (hm.fine D hD).wf) trivial i
  · exact byNumber_all (Q := Decl.Kept) (fun D hD => (hm.widths D hD).kept (hb D hD)) nofun i
  · refine byNumber_all (Q := Wire.Unpacked) (fun D hD => ?_) (fun _ h => by cases h) i
    have := hb D hD
    cases D with
    | enum => trivial
    | _ => exact fun f hf => (this f hf).2.1
  · exact byNumber_all (Q := fun D => ∀ f ∈ D.allFields, f.align ≤ 248) (fun D hD f hf => (hb D hD f hf).1) nofun i

theorem exGenerated_usable : ∀ D ∈ exGenerated, D.Usable := by
  intro D hD f hf
  refine ⟨(exGenerated_bytewise D hD f hf).1, (exGenerated_unpacked D hD).fields f hf, fun k hk env n h => ?_⟩
  simp only [exGenerated, List.mem_cons, List.not_mem_nil, or_false] at hD
  rcases hD with rfl | rfl
  · cases hf
  · simp only [Decl.allFields, List.mem_cons, List.not_mem_nil, or_false] at hf
    rcases hf with rfl | rfl | rfl | rfl | rfl | rfl | rfl <;> cases h

/-- C102 for the schema of `ObjectText` and bytes whose padding before the array and after the object is ones. -/
example : ∃ code v, compileText (piecesText (spaced exGenerateTokens)) = some code ∧
    unmarshal [0xa0#8, 0x20#8, 0x40#8, 0x5f#8, 0x00#8, 0x70#8, 0x0c#8, 0x13#8] ((methods (byNumber code) 2 1).unmarshal exGeneratedOld) = .ok v ∧
    ∃ bytes, marshal ((methods (byNumber code) 2 1).marshal v) = .ok bytes ∧
      ∀ t, unmarshal (bytes ++ t) ((methods (byNumber code) 2 1).unmarshal exGeneratedOld) = .ok v := by
  obtain ⟨code, h1, h2⟩ := C102_text_partial exGenerate_text exGenerate_closed exGenerate_means exGenerated_usable
  obtain rfl : code = exGenerated := Option.some.inj (h1.symm.trans exGenerate_compiles)
  have h : (match unmarshal [0xa0#8, 0x20#8, 0x40#8, 0x5f#8, 0x00#8, 0x70#8, 0x0c#8, 0x13#8] ((methods (byNumber exGenerated) 2 1).unmarshal exGeneratedOld) with
      | .ok _ => true
      | .error _ => false) = true := by decide +kernel
  cases hv : unmarshal [0xa0#8, 0x20#8, 0x40#8, 0x5f#8, 0x00#8, 0x70#8, 0x0c#8, 0x13#8] ((methods (byNumber exGenerated) 2 1).unmarshal exGeneratedOld) with
  | error e => rw [hv] at h; cases h
  | ok v => exact ⟨_, v, h1, hv, h2 2 1 _ v _ hv⟩

end Verif
