import Verif.Outputs
import Mathlib.Data.List.Nodup

/-!
# C40: the order of outputs
-/

namespace Verif

theorem outputLess_false (a b : Output) :
    outputLess a b = false ↔ a.template < b.template ∨ (a.template = b.template ∧ a.name ≤ b.name) := by
  unfold outputLess
  split
  · rename_i h
    simp [h, not_lt]
  · rename_i h
    simp only [decide_eq_false_iff_not, not_lt]
    constructor
    · intro hle
      exact .inl (lt_of_le_of_ne hle h)
    · rintro (hlt | ⟨he, _⟩)
      · exact le_of_lt hlt
      · exact absurd he h

theorem outputLess_negtrans {a b c : Output} (h1 : outputLess a b = false) (h2 : outputLess b c = false) : outputLess a c = false := by
  rw [outputLess_false] at *
  rcases h1 with h1 | ⟨e1, h1⟩ <;> rcases h2 with h2 | ⟨e2, h2⟩
  · exact .inl (lt_trans h1 h2)
  · exact .inl (e2 ▸ h1)
  · exact .inl (e1 ▸ h2)
  · exact .inr ⟨e1.trans e2, le_trans h1 h2⟩

theorem outputLess_total (a b : Output) (h : outputLess a b = true) : outputLess b a = false := by
  by_contra hc
  rw [Bool.not_eq_false] at hc
  have h1 : ¬ outputLess a b = false := by simp [h]
  have h2 : ¬ outputLess b a = false := by simp [hc]
  rw [outputLess_false] at h1 h2
  rcases lt_trichotomy a.template b.template with ht | ht | ht
  · exact h1 (.inl ht)
  · rcases le_total a.name b.name with hn | hn
    · exact h1 (.inr ⟨ht, hn⟩)
    · exact h2 (.inr ⟨ht.symm, hn⟩)
  · exact h2 (.inl ht)

theorem insertBack_perm (less : Output → Output → Bool) (x : Output) (l : List Output) : (insertBack less x l).Perm (x :: l) := by
  induction l with
  | nil => exact .refl _
  | cons y ys ih =>
    simp only [insertBack]
    split
    · exact (ih.cons y).trans (List.Perm.swap _ _ _)
    · exact .refl _

theorem insertBack_sorted (x : Output) (l : List Output) (h : l.Pairwise fun a b => outputLess a b = false) :
    (insertBack outputLess x l).Pairwise fun a b => outputLess a b = false := by
  induction l with
  | nil => simp [insertBack]
  | cons y ys ih =>
    have hy := List.pairwise_cons.mp h
    simp only [insertBack]
    split
    · rename_i hl
      rw [List.pairwise_cons]
      refine ⟨?_, ih hy.2⟩
      intro z hz
      rcases List.mem_cons.mp ((insertBack_perm _ _ _).subset hz) with rfl | hz
      · exact outputLess_total _ _ hl
      · exact hy.1 z hz
    · rename_i hl
      rw [Bool.not_eq_true] at hl
      rw [List.pairwise_cons]
      refine ⟨?_, h⟩
      intro z hz
      rcases List.mem_cons.mp hz with rfl | hz
      · exact hl
      · exact outputLess_negtrans hl (hy.1 z hz)

/-- C40: the sorting algorithm used for up to twelve outputs does sort. -/
theorem C40_sorts (l : List Output) : SortResult outputLess l (insertionSort outputLess l) := by
  have key : ∀ (l r : List Output), r.Pairwise (fun a b => outputLess a b = false) →
      (l.foldl (fun r x => insertBack outputLess x r) r).Perm (l ++ r) ∧
        (l.foldl (fun r x => insertBack outputLess x r) r).Pairwise fun a b => outputLess a b = false := by
    intro l
    induction l with
    | nil => intro r hr; exact ⟨.refl _, hr⟩
    | cons x l ih =>
      intro r hr
      obtain ⟨h1, h2⟩ := ih _ (insertBack_sorted x r hr)
      refine ⟨h1.trans ?_, h2⟩
      exact ((insertBack_perm _ _ _).append_left l).trans List.perm_middle
  obtain ⟨h1, h2⟩ := key l [] .nil
  refine ⟨?_, ?_⟩
  · exact (List.reverse_perm _).trans (by simpa using h1)
  · unfold insertionSort
    rw [List.pairwise_reverse]
    exact h2

/-- The same declarations, with the maps iterated over in another order. -/
def PkgDecls.Same (p q : PkgDecls) : Prop :=
  p.enums.Perm q.enums ∧ p.unions.Perm q.unions ∧ p.bitmasks.Perm q.bitmasks ∧ p.choices.Perm q.choices ∧ p.structs.Perm q.structs

theorem outputs_perm (p q : PkgDecls) (h : p.Same q) : p.outputs.Perm q.outputs := by
  obtain ⟨h1, h2, h3, h4, h5⟩ := h
  unfold PkgDecls.outputs
  exact ((((h1.append (h2.filter _)).append h3).append (h4.filter _)).append (h5.filter _)).map _

/-- The types of a package that are generated: all that are not templates. -/
def PkgDecls.generated (p : PkgDecls) : List TypeDecl :=
  p.enums ++ p.unions.filter (!·.hasTemplateParameters) ++ p.bitmasks ++ p.choices.filter (!·.hasTemplateParameters) ++
    p.structs.filter (!·.hasTemplateParameters)

/-- C40: whatever the iteration order of the maps and however the outputs are sorted, the result is the same, if no two types
of a kind have the same name in snake case.
Missing: types with the same name in snake case, see `C40_violated_order`. -/
theorem C40_deterministic_partial (p q : PkgDecls) (h : p.Same q) (hn : (p.generated.map fun d => (d.kind, toSnake d.name)).Nodup)
    (sort sort' : List Output → List Output) (hs : SortResult outputLess p.outputs (sort p.outputs))
    (hs' : SortResult outputLess q.outputs (sort' q.outputs)) : newOutputs sort p = newOutputs sort' q := by
  have hk : (p.outputs.map fun o => (o.template, o.name)).Nodup := by
    have he : (p.outputs.map fun o => (o.template, o.name)) =
        (p.generated.map fun d => (d.kind, toSnake d.name)).map fun x => (x.1 ++ ".go.tmpl".toList, x.2) := by
      simp only [PkgDecls.outputs, PkgDecls.generated, List.map_map]
      rfl
    rw [he]
    refine hn.map fun x y hxy => ?_
    injection hxy with h1 h2
    exact Prod.ext (List.append_cancel_right h1) h2
  unfold newOutputs
  congr 1
  refine List.Perm.eq_of_pairwise (le := fun a b => outputLess b a = false) ?_ hs.2 hs'.2
    ((hs.1.trans (outputs_perm p q h)).trans hs'.1.symm)
  intro a b ha hb h1 h2
  have ha' : a ∈ p.outputs := hs.1.subset ha
  have hb' : b ∈ p.outputs := (outputs_perm p q h).symm.subset (hs'.1.subset hb)
  rw [outputLess_false] at h1 h2
  have hkey : (a.template, a.name) = (b.template, b.name) := by
    rcases h1 with h1 | ⟨e1, h1⟩ <;> rcases h2 with h2 | ⟨e2, h2⟩
    · exact absurd h1 (lt_asymm h2)
    · rw [e2] at h1; exact absurd h1 (lt_irrefl _)
    · rw [e1] at h2; exact absurd h2 (lt_irrefl _)
    · rw [e2, le_antisymm h1 h2]
  exact List.inj_on_of_nodup_map hk ha' hb' hkey

/-- Sample declarations. -/
def sampleDecls (structs : List TypeDecl) : PkgDecls :=
  ⟨[⟨"enum".toList, "Color".toList, false⟩], [], [], [], structs⟩

example : (sampleDecls [⟨"struct".toList, "Foo".toList, false⟩, ⟨"struct".toList, "Tmpl".toList, true⟩, ⟨"struct".toList, "Bar".toList, false⟩]).Same
      (sampleDecls [⟨"struct".toList, "Bar".toList, false⟩, ⟨"struct".toList, "Foo".toList, false⟩, ⟨"struct".toList, "Tmpl".toList, true⟩]) ∧
    (newOutputs (insertionSort outputLess) (sampleDecls [⟨"struct".toList, "Bar".toList, false⟩, ⟨"struct".toList, "Foo".toList, false⟩,
      ⟨"struct".toList, "Tmpl".toList, true⟩])).map Output.name = ["pkg".toList, "foo".toList, "bar".toList, "color".toList] := by
  refine ⟨⟨.refl _, .refl _, .refl _, .refl _, ?_⟩, by decide +kernel⟩
  decide +kernel

example : ((sampleDecls [⟨"struct".toList, "Color".toList, false⟩, ⟨"struct".toList, "Bar".toList, false⟩]).generated.map
    fun d => (d.kind, toSnake d.name)).Nodup := by decide +kernel

/-- C40: two structs whose names only differ in case are written in the order of the map iteration, so that even their file
names are swapped. -/
theorem C40_violated_order : ∃ p q : PkgDecls, p.Same q ∧
    newOutputs (insertionSort outputLess) p ≠ newOutputs (insertionSort outputLess) q :=
  ⟨sampleDecls [⟨"struct".toList, "FOO".toList, false⟩, ⟨"struct".toList, "Foo".toList, false⟩],
    sampleDecls [⟨"struct".toList, "Foo".toList, false⟩, ⟨"struct".toList, "FOO".toList, false⟩],
    ⟨.refl _, .refl _, .refl _, .refl _, List.Perm.swap _ _ _⟩, by decide +kernel⟩

end Verif
