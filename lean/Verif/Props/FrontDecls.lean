import Verif.Props.FrontEnd
import Mathlib.Data.List.Forall2

/-!
# C69 for fields and declarations, C70: which declarations reach the generator
-/

namespace Verif

/-! ## Fields -/

/-- Two fields (without their attributes) mean the same.  Not compared: `packed` and `implicit` of fields that are no arrays, and
`implicit` of arrays, which is not accepted. -/
def SameTypeId (a b : CFieldTypeId) : Prop :=
  a.name = b.name ∧ SameInst a.type b.type ∧ a.array = b.array ∧ (a.array ≠ none → a.packed = b.packed)

/-- The number of bits of `align(...)`; no alignment is like an alignment to 0. -/
def alignedTo : Option CExpr → Nat
  | some (.literal .decimal text) => decimalValue text
  | _ => 0

/-- Two fields of structures mean the same.  **Not compared**: the offset and `extend`. -/
def SameField (a b : CField) : Prop :=
  SameTypeId a.typeId b.typeId ∧ a.optional = b.optional ∧ alignedTo a.alignment = alignedTo b.alignment ∧
  a.initializer = b.initializer ∧ a.optionalClause = b.optionalClause ∧ a.constraint = b.constraint

theorem ident_text_iff {a b : Ident} : a.text = b.text ↔ a = b := ⟨ident_text_inj, fun h => h ▸ rfl⟩

theorem visitFieldTypeId_same (a b : CFieldTypeId) (ha : LegalType a.type.type) (hb : LegalType b.type.type) (x y : AField)
    (hx : visitFieldTypeId a = some x) (hy : visitFieldTypeId b = some y) : x = y ↔ SameTypeId a b := by
  have ht := visitTypeInst_same a.type b.type ha hb
  unfold visitFieldTypeId at hx hy
  unfold SameTypeId
  cases ha' : a.array with
  | none =>
    rw [ha'] at hx
    cases hx
    cases hb' : b.array with
    | none =>
      rw [hb'] at hy
      cases hy
      simp [AField.mk.injEq, ident_text_iff, ht]
    | some lb =>
      rw [hb'] at hy
      simp only at hy
      split_ifs at hy
      cases hy
      simp [AField.mk.injEq]
  | some la =>
    rw [ha'] at hx
    simp only at hx
    split_ifs at hx
    cases hx
    cases hb' : b.array with
    | none =>
      rw [hb'] at hy
      cases hy
      simp [AField.mk.injEq]
    | some lb =>
      rw [hb'] at hy
      simp only at hy
      split_ifs at hy
      cases hy
      simp only [AField.mk.injEq, ident_text_iff, ht, Option.some.injEq, AArray.mk.injEq, option_visit_inj, true_and,
        ne_eq, reduceCtorEq, not_false_eq_true, forall_const]
      tauto

theorem visitAlignment_some {e : CExpr} {n : Nat} (h : visitAlignment e = some n) : alignedTo (some e) = n := by
  cases e with
  | literal kind text =>
    cases kind <;> simp only [visitAlignment, visitExpr, TokenKind.tok, parseUint8] at h
    case decimal =>
      split_ifs at h with h1 h2
      · simp only [Option.some.injEq] at h
        rw [← h, digitsValue_eq]
        rfl
    all_goals cases h
  | _ => cases h

theorem visitField_some {f : CField} {x : AField} (h : visitField f = some x) :
    ∃ t, visitFieldTypeId f.typeId = some t ∧
      x = ⟨t.name, f.optional, alignedTo f.alignment, t.type, f.initializer.map visitExpr, f.constraint.map visitExpr,
        f.optionalClause.map visitExpr, t.array⟩ := by
  unfold visitField at h
  cases ht : visitFieldTypeId f.typeId with
  | none => simp [ht] at h
  | some t =>
    refine ⟨t, rfl, ?_⟩
    cases ha : f.alignment with
    | none =>
      simp only [ht, ha, Option.bind_eq_bind, Option.bind_some, Option.pure_def, Option.some.injEq] at h
      rw [← h]
      rfl
    | some e =>
      simp only [ht, ha, Option.bind_eq_bind, Option.bind_some, Option.pure_def] at h
      cases hn : visitAlignment e with
      | none => simp [hn] at h
      | some n =>
        simp only [hn, Option.bind_some, Option.some.injEq] at h
        rw [visitAlignment_some hn, ← h]

/-- The fields a type identifier leaves open. -/
theorem visitFieldTypeId_plain {f : CFieldTypeId} {t : AField} (h : visitFieldTypeId f = some t) :
    t.optional = false ∧ t.alignment = 0 ∧ t.initializer = none ∧ t.constraint = none ∧ t.optionalClause = none := by
  unfold visitFieldTypeId at h
  cases ha : f.array with
  | none =>
    rw [ha] at h
    cases h
    exact ⟨rfl, rfl, rfl, rfl, rfl⟩
  | some l =>
    rw [ha] at h
    simp only at h
    split_ifs at h
    cases h
    exact ⟨rfl, rfl, rfl, rfl, rfl⟩

theorem visitField_same (a b : CField) (ha : LegalType a.typeId.type.type) (hb : LegalType b.typeId.type.type) (x y : AField)
    (hx : visitField a = some x) (hy : visitField b = some y) : x = y ↔ SameField a b := by
  obtain ⟨t, ht, rfl⟩ := visitField_some hx
  obtain ⟨u, hu, rfl⟩ := visitField_some hy
  have h := visitFieldTypeId_same _ _ ha hb t u ht hu
  obtain ⟨t1, t2, t3, t4, t5⟩ := visitFieldTypeId_plain ht
  obtain ⟨u1, u2, u3, u4, u5⟩ := visitFieldTypeId_plain hu
  unfold SameField
  rw [← h]
  cases t
  cases u
  simp only at t1 t2 t3 t4 t5 u1 u2 u3 u4 u5
  subst t1 t2 t3 t4 t5 u1 u2 u3 u4 u5
  simp only [AField.mk.injEq, option_visit_inj, true_and]
  tauto

/-! ## Lists -/

theorem visitAll_same {α β : Type} (f : α → Option β) (R : α → α → Prop) (P : α → Prop)
    (hf : ∀ a b x y, P a → P b → f a = some x → f b = some y → (x = y ↔ R a b)) (as bs : List α)
    (ha : ∀ a ∈ as, P a) (hb : ∀ b ∈ bs, P b) (xs ys : List β) (hx : visitAll f as = some xs)
    (hy : visitAll f bs = some ys) : xs = ys ↔ List.Forall₂ R as bs := by
  induction as generalizing bs xs ys with
  | nil =>
    cases hx
    cases bs with
    | nil =>
      cases hy
      simp
    | cons b bs =>
      simp only [visitAll, Option.bind_eq_bind, Option.pure_def] at hy
      cases hb1 : f b with
      | none => simp [hb1] at hy
      | some y =>
        cases hb2 : visitAll f bs with
        | none => simp [hb1, hb2] at hy
        | some zs =>
          simp only [hb1, hb2, Option.bind_some, Option.some.injEq] at hy
          subst hy
          simp
  | cons a as ih =>
    simp only [visitAll, Option.bind_eq_bind, Option.pure_def] at hx
    cases ha1 : f a with
    | none => simp [ha1] at hx
    | some x =>
      cases ha2 : visitAll f as with
      | none => simp [ha1, ha2] at hx
      | some ws =>
        simp only [ha1, ha2, Option.bind_some, Option.some.injEq] at hx
        subst hx
        cases bs with
        | nil =>
          cases hy
          simp
        | cons b bs =>
          simp only [visitAll, Option.bind_eq_bind, Option.pure_def] at hy
          cases hb1 : f b with
          | none => simp [hb1] at hy
          | some y =>
            cases hb2 : visitAll f bs with
            | none => simp [hb1, hb2] at hy
            | some zs =>
              simp only [hb1, hb2, Option.bind_some, Option.some.injEq] at hy
              subst hy
              simp only [List.cons.injEq, List.forall₂_cons]
              rw [hf a b x y (ha a (by simp)) (hb b (by simp)) ha1 hb1,
                ih bs (fun c hc => ha c (by simp [hc])) (fun c hc => hb c (by simp [hc])) ws zs ha2 hb2]

theorem map_same {α β : Type} (f : α → β) (R : α → α → Prop) (P : α → Prop)
    (hf : ∀ a b, P a → P b → (f a = f b ↔ R a b)) (as bs : List α) (ha : ∀ a ∈ as, P a) (hb : ∀ b ∈ bs, P b) :
    as.map f = bs.map f ↔ List.Forall₂ R as bs := by
  induction as generalizing bs with
  | nil => cases bs <;> simp
  | cons a as ih =>
    cases bs with
    | nil => simp
    | cons b bs =>
      simp only [List.map_cons, List.cons.injEq, List.forall₂_cons]
      rw [hf a b (ha a (by simp)) (hb b (by simp)),
        ih bs (fun c hc => ha c (by simp [hc])) (fun c hc => hb c (by simp [hc]))]

/-! ## Declarations -/

def SameParam (a b : CParam) : Prop := a.name = b.name ∧ SameType a.type b.type

def SameFunction (a b : CFunction) : Prop := a.name = b.name ∧ SameType a.type b.type ∧ a.result = b.result

def SameHead (a b : CHead) : Prop :=
  a.name = b.name ∧ a.templateParams = b.templateParams ∧ List.Forall₂ SameParam a.typeParams b.typeParams

/-- Fields of choices and unions.  **Not compared**: the constraint. -/
def SameChoiceField (a b : CChoiceField) : Prop := SameTypeId a.typeId b.typeId

def SameOption {α : Type} (R : α → α → Prop) : Option α → Option α → Prop
  | none, none => True
  | some a, some b => R a b
  | _, _ => False

def SameCases (a b : CChoiceCases) : Prop :=
  a.first = b.first ∧ a.others = b.others ∧ SameOption SameChoiceField a.field b.field

/-- **Not compared**: `@deprecated` and `@removed`. -/
def SameItem (a b : CEnumItem) : Prop := a.name = b.name ∧ a.value = b.value

/-- Two declarations mean the same.  **Not compared** are declarations of SQL tables, SQL databases, services, publishers and rule
groups, nor the parts named above. -/
def SameDirective : CDirective → CDirective → Prop
  | .const t n v, .const t' n' v' => n = n' ∧ SameInst t t' ∧ v = v'
  | .subtype t n, .subtype t' n' => n = n' ∧ SameType t t'
  | .instantiate t n, .instantiate t' n' => n = n' ∧ SameType t t'
  | .structure h fs gs, .structure h' fs' gs' =>
    SameHead h h' ∧ List.Forall₂ SameField fs fs' ∧ List.Forall₂ SameFunction gs gs'
  | .choice h s cs d gs, .choice h' s' cs' d' gs' =>
    SameHead h h' ∧ s = s' ∧ List.Forall₂ SameCases cs cs' ∧ SameOption (SameOption SameChoiceField) d d' ∧
      List.Forall₂ SameFunction gs gs'
  | .union h fs gs, .union h' fs' gs' =>
    SameHead h h' ∧ List.Forall₂ SameChoiceField fs fs' ∧ List.Forall₂ SameFunction gs gs'
  | .enum t n is, .enum t' n' is' => n = n' ∧ SameInst t t' ∧ List.Forall₂ SameItem is is'
  | .bitmask t n vs, .bitmask t' n' vs' => n = n' ∧ SameInst t t' ∧ vs = vs'
  | .other _, .other _ => True
  | _, _ => False

def LegalHead (h : CHead) : Prop := ∀ p ∈ h.typeParams, LegalType p.type

def LegalFunctions (gs : List CFunction) : Prop := ∀ g ∈ gs, LegalType g.type

def LegalChoiceField (f : CChoiceField) : Prop := LegalType f.typeId.type.type

/-- All bit fields in a declaration have a width that the language allows. -/
def LegalDirective : CDirective → Prop
  | .const t _ _ => LegalType t.type
  | .subtype t _ => LegalType t
  | .instantiate t _ => LegalType t
  | .structure h fs gs => LegalHead h ∧ (∀ f ∈ fs, LegalType f.typeId.type.type) ∧ LegalFunctions gs
  | .choice h _ cs d gs => LegalHead h ∧ (∀ c ∈ cs, ∀ f ∈ c.field, LegalChoiceField f) ∧
      (∀ o ∈ d, ∀ f ∈ o, LegalChoiceField f) ∧ LegalFunctions gs
  | .union h fs gs => LegalHead h ∧ (∀ f ∈ fs, LegalChoiceField f) ∧ LegalFunctions gs
  | .enum t _ _ => LegalType t.type
  | .bitmask t _ _ => LegalType t.type
  | .other _ => True

theorem visitParams_same (as bs : List CParam) (ha : ∀ p ∈ as, LegalType p.type) (hb : ∀ p ∈ bs, LegalType p.type) :
    as.map visitParam = bs.map visitParam ↔ List.Forall₂ SameParam as bs := by
  refine map_same _ _ (fun p => LegalType p.type) ?_ as bs ha hb
  intro a b h1 h2
  simp only [visitParam, AParam.mk.injEq, SameParam, ident_text_iff, visitTypeRef_same _ _ h1 h2]

theorem visitFunctions_same (as bs : List CFunction) (ha : LegalFunctions as) (hb : LegalFunctions bs) :
    as.map visitFunction = bs.map visitFunction ↔ List.Forall₂ SameFunction as bs := by
  refine map_same _ _ (fun g : CFunction => LegalType g.type) ?_ as bs ha hb
  intro a b h1 h2
  simp only [visitFunction, AFunction.mk.injEq, SameFunction, ident_text_iff, visitTypeRef_same _ _ h1 h2, C69_expression]

theorem map_ident_text {as bs : List Ident} : as.map Ident.text = bs.map Ident.text ↔ as = bs := by
  constructor
  · intro h
    exact List.map_injective_iff.2 (fun x y hxy => ident_text_inj hxy) h
  · exact fun h => h ▸ rfl

theorem visitOptionField_same (a b : Option CChoiceField) (ha : ∀ f ∈ a, LegalChoiceField f)
    (hb : ∀ f ∈ b, LegalChoiceField f) (x y : Option AField) (hx : visitOptionField a = some x)
    (hy : visitOptionField b = some y) : x = y ↔ SameOption SameChoiceField a b := by
  cases a with
  | none =>
    cases hx
    cases b with
    | none =>
      cases hy
      simp [SameOption]
    | some g =>
      simp only [visitOptionField, Option.map_eq_some_iff] at hy
      obtain ⟨u, -, rfl⟩ := hy
      simp [SameOption]
  | some f =>
    simp only [visitOptionField, Option.map_eq_some_iff] at hx
    obtain ⟨t, ht, rfl⟩ := hx
    cases b with
    | none =>
      cases hy
      simp [SameOption]
    | some g =>
      simp only [visitOptionField, Option.map_eq_some_iff] at hy
      obtain ⟨u, hu, rfl⟩ := hy
      simp only [Option.some.injEq, SameOption]
      exact visitFieldTypeId_same _ _ (ha f rfl) (hb g rfl) t u ht hu

theorem visitChoiceCases_same (a b : CChoiceCases) (x y : AChoiceCase) (ha : ∀ f ∈ a.field, LegalChoiceField f)
    (hb : ∀ f ∈ b.field, LegalChoiceField f) (hx : visitChoiceCases a = some x) (hy : visitChoiceCases b = some y) :
    x = y ↔ SameCases a b := by
  simp only [visitChoiceCases, Option.map_eq_some_iff] at hx hy
  obtain ⟨f, hf, rfl⟩ := hx
  obtain ⟨g, hg, rfl⟩ := hy
  simp only [AChoiceCase.mk.injEq, map_visit_inj, List.cons.injEq, SameCases, visitOptionField_same _ _ ha hb f g hf hg]
  tauto

theorem visitChoiceDefault_same (a b : Option (Option CChoiceField)) (ha : ∀ o ∈ a, ∀ f ∈ o, LegalChoiceField f)
    (hb : ∀ o ∈ b, ∀ f ∈ o, LegalChoiceField f) (x y : Option AChoiceCase) (hx : visitChoiceDefault a = some x)
    (hy : visitChoiceDefault b = some y) : x = y ↔ SameOption (SameOption SameChoiceField) a b := by
  cases a with
  | none =>
    cases hx
    cases b with
    | none =>
      cases hy
      simp [SameOption]
    | some g =>
      simp only [visitChoiceDefault, Option.map_eq_some_iff] at hy
      obtain ⟨u, -, rfl⟩ := hy
      simp [SameOption]
  | some f =>
    simp only [visitChoiceDefault, Option.map_eq_some_iff] at hx
    obtain ⟨t, ht, rfl⟩ := hx
    cases b with
    | none =>
      cases hy
      simp [SameOption]
    | some g =>
      simp only [visitChoiceDefault, Option.map_eq_some_iff] at hy
      obtain ⟨u, hu, rfl⟩ := hy
      simp only [Option.some.injEq, AChoiceCase.mk.injEq, true_and]
      rw [visitOptionField_same f g (ha f rfl) (hb g rfl) t u ht hu]
      rfl

theorem visitHead_same (a b : CHead) (ha : LegalHead a) (hb : LegalHead b) :
    (a.name.text = b.name.text ∧ a.templateParams.map Ident.text = b.templateParams.map Ident.text ∧
      a.typeParams.map visitParam = b.typeParams.map visitParam) ↔ SameHead a b := by
  rw [SameHead, ident_text_iff, map_ident_text, visitParams_same _ _ ha hb]

theorem visitItems_same (as bs : List CEnumItem) : as.map visitEnumItem = bs.map visitEnumItem ↔ List.Forall₂ SameItem as bs := by
  refine map_same _ _ (fun _ => True) ?_ as bs (fun _ _ => trivial) (fun _ _ => trivial)
  intro a b _ _
  simp only [visitEnumItem, AItem.mk.injEq, SameItem, ident_text_iff, option_visit_inj]

theorem visitValues_same (as bs : List CBitmaskValue) : as.map visitBitmaskValue = bs.map visitBitmaskValue ↔ as = bs := by
  constructor
  · intro h
    refine List.map_injective_iff.2 ?_ h
    rintro ⟨n, v⟩ ⟨n', v'⟩ hxy
    simp only [visitBitmaskValue, AItem.mk.injEq, ident_text_iff, option_visit_inj] at hxy
    simp [hxy]
  · exact fun h => h ▸ rfl

theorem visit_structure {h : CHead} {fs : List CField} {gs : List CFunction} {x : Option ADecl}
    (hx : visitDirective (.structure h fs gs) = some x) : ∃ xs, visitAll visitField fs = some xs ∧
      x = some (.struct h.name.text (h.templateParams.map Ident.text) (h.typeParams.map visitParam) xs
        (gs.map visitFunction)) := by
  simp only [visitDirective, Option.bind_eq_bind, Option.bind_eq_some_iff, Option.pure_def, Option.some.injEq] at hx
  obtain ⟨xs, h1, h2⟩ := hx
  exact ⟨xs, h1, h2.symm⟩

theorem visit_union {h : CHead} {fs : List CChoiceField} {gs : List CFunction} {x : Option ADecl}
    (hx : visitDirective (.union h fs gs) = some x) : ∃ xs, visitAll visitChoiceField fs = some xs ∧
      x = some (.union h.name.text (h.templateParams.map Ident.text) (h.typeParams.map visitParam) xs
        (gs.map visitFunction)) := by
  simp only [visitDirective, Option.bind_eq_bind, Option.bind_eq_some_iff, Option.pure_def, Option.some.injEq] at hx
  obtain ⟨xs, h1, h2⟩ := hx
  exact ⟨xs, h1, h2.symm⟩

theorem visit_choice {h : CHead} {s : CExpr} {cs : List CChoiceCases} {d : Option (Option CChoiceField)}
    {gs : List CFunction} {x : Option ADecl} (hx : visitDirective (.choice h s cs d gs) = some x) :
    ∃ xs dx, visitAll visitChoiceCases cs = some xs ∧ visitChoiceDefault d = some dx ∧
      x = some (.choice h.name.text (h.templateParams.map Ident.text) (h.typeParams.map visitParam) (visitExpr s) xs dx
        (gs.map visitFunction)) := by
  simp only [visitDirective, Option.bind_eq_bind, Option.bind_eq_some_iff, Option.pure_def, Option.some.injEq] at hx
  obtain ⟨xs, h1, dx, h2, h3⟩ := hx
  exact ⟨xs, dx, h1, h2, h3.symm⟩

/-- The kind of the result. -/
theorem visitDirective_kind {d : CDirective} {x : Option ADecl} (hx : visitDirective d = some x) :
    match d with
    | .const .. => ∃ n t v, x = some (.const n t v)
    | .subtype .. => ∃ n t, x = some (.subtype n t)
    | .instantiate .. => ∃ n t, x = some (.instantiate n t)
    | .structure .. => ∃ n a b c e, x = some (.struct n a b c e)
    | .choice .. => ∃ n a b c e f g, x = some (.choice n a b c e f g)
    | .union .. => ∃ n a b c e, x = some (.union n a b c e)
    | .enum .. => ∃ n t v, x = some (.enum n t v)
    | .bitmask .. => ∃ n t v, x = some (.bitmask n t v)
    | .other .. => x = none := by
  cases d with
  | const t n v => cases hx; exact ⟨_, _, _, rfl⟩
  | subtype t n => cases hx; exact ⟨_, _, rfl⟩
  | instantiate t n => cases hx; exact ⟨_, _, rfl⟩
  | «structure» h fs gs => obtain ⟨xs, -, rfl⟩ := visit_structure hx; exact ⟨_, _, _, _, _, rfl⟩
  | choice h s cs d gs => obtain ⟨xs, dx, -, -, rfl⟩ := visit_choice hx; exact ⟨_, _, _, _, _, _, _, rfl⟩
  | union h fs gs => obtain ⟨xs, -, rfl⟩ := visit_union hx; exact ⟨_, _, _, _, _, rfl⟩
  | enum t n is => cases hx; exact ⟨_, _, _, rfl⟩
  | bitmask t n vs => cases hx; exact ⟨_, _, _, rfl⟩
  | other d => cases hx; rfl

/-- **C69** (except for the parts named at the relations `Same…`): two declarations that are accepted become the same syntax tree,
and so the same code, exactly if they mean the same, part by part. -/
theorem C69_same_partial (d e : CDirective) (x y : Option ADecl) (hd : LegalDirective d) (he : LegalDirective e)
    (hx : visitDirective d = some x) (hy : visitDirective e = some y) : x = y ↔ SameDirective d e := by
  have kd := visitDirective_kind hx
  have ke := visitDirective_kind hy
  cases d with
  | const t n v =>
    cases e with
    | const t' n' v' =>
      cases hx
      cases hy
      simp only [Option.some.injEq, ADecl.const.injEq, SameDirective, ident_text_iff, C69_expression]
      rw [visitTypeInst_same _ _ hd he]
    | _ =>
      simp only at kd ke
      obtain ⟨_, _, _, rfl⟩ := kd
      simp only [SameDirective, iff_false]
      intro h
      simp [← h] at ke
  | subtype t n =>
    cases e with
    | subtype t' n' =>
      cases hx
      cases hy
      simp only [Option.some.injEq, ADecl.subtype.injEq, SameDirective, ident_text_iff]
      rw [visitTypeRef_same _ _ hd he]
    | _ =>
      simp only at kd ke
      obtain ⟨_, _, rfl⟩ := kd
      simp only [SameDirective, iff_false]
      intro h
      simp [← h] at ke
  | instantiate t n =>
    cases e with
    | instantiate t' n' =>
      cases hx
      cases hy
      simp only [Option.some.injEq, ADecl.instantiate.injEq, SameDirective, ident_text_iff]
      rw [visitTypeRef_same _ _ hd he]
    | _ =>
      simp only at kd ke
      obtain ⟨_, _, rfl⟩ := kd
      simp only [SameDirective, iff_false]
      intro h
      simp [← h] at ke
  | «structure» h fs gs =>
    cases e with
    | «structure» h' fs' gs' =>
      obtain ⟨xs, hxs, rfl⟩ := visit_structure hx
      obtain ⟨ys, hys, rfl⟩ := visit_structure hy
      obtain ⟨d1, d2, d3⟩ := hd
      obtain ⟨e1, e2, e3⟩ := he
      have hf := visitAll_same visitField SameField (fun f => LegalType f.typeId.type.type)
        (fun a b x y ha hb => visitField_same a b ha hb x y) fs fs' d2 e2 xs ys hxs hys
      simp only [Option.some.injEq, ADecl.struct.injEq, SameDirective]
      rw [← visitHead_same h h' d1 e1, hf, visitFunctions_same gs gs' d3 e3]
      tauto
    | _ =>
      simp only at kd ke
      obtain ⟨_, _, _, _, _, rfl⟩ := kd
      simp only [SameDirective, iff_false]
      intro h
      simp [← h] at ke
  | choice h s cs d gs =>
    cases e with
    | choice h' s' cs' d' gs' =>
      obtain ⟨xs, dx, hxs, hdx, rfl⟩ := visit_choice hx
      obtain ⟨ys, dy, hys, hdy, rfl⟩ := visit_choice hy
      obtain ⟨d1, d2, d3, d4⟩ := hd
      obtain ⟨e1, e2, e3, e4⟩ := he
      have hf := visitAll_same visitChoiceCases SameCases (fun c => ∀ f ∈ c.field, LegalChoiceField f)
        (fun a b x y ha hb => visitChoiceCases_same a b x y ha hb) cs cs' d2 e2 xs ys hxs hys
      have hdef := visitChoiceDefault_same d d' d3 e3 dx dy hdx hdy
      simp only [Option.some.injEq, ADecl.choice.injEq, SameDirective]
      rw [← visitHead_same h h' d1 e1, hf, hdef, visitFunctions_same gs gs' d4 e4, C69_expression]
      tauto
    | _ =>
      simp only at kd ke
      obtain ⟨_, _, _, _, _, _, _, rfl⟩ := kd
      simp only [SameDirective, iff_false]
      intro h
      simp [← h] at ke
  | union h fs gs =>
    cases e with
    | union h' fs' gs' =>
      obtain ⟨xs, hxs, rfl⟩ := visit_union hx
      obtain ⟨ys, hys, rfl⟩ := visit_union hy
      obtain ⟨d1, d2, d3⟩ := hd
      obtain ⟨e1, e2, e3⟩ := he
      have hf := visitAll_same visitChoiceField SameChoiceField LegalChoiceField
        (fun a b x y ha hb => visitFieldTypeId_same _ _ ha hb x y) fs fs' d2 e2 xs ys hxs hys
      simp only [Option.some.injEq, ADecl.union.injEq, SameDirective]
      rw [← visitHead_same h h' d1 e1, hf, visitFunctions_same gs gs' d3 e3]
      tauto
    | _ =>
      simp only at kd ke
      obtain ⟨_, _, _, _, _, rfl⟩ := kd
      simp only [SameDirective, iff_false]
      intro h
      simp [← h] at ke
  | enum t n is =>
    cases e with
    | enum t' n' is' =>
      cases hx
      cases hy
      simp only [Option.some.injEq, ADecl.enum.injEq, SameDirective, ident_text_iff]
      rw [visitTypeInst_same _ _ hd he, visitItems_same]
    | _ =>
      simp only at kd ke
      obtain ⟨_, _, _, rfl⟩ := kd
      simp only [SameDirective, iff_false]
      intro h
      simp [← h] at ke
  | bitmask t n vs =>
    cases e with
    | bitmask t' n' vs' =>
      cases hx
      cases hy
      simp only [Option.some.injEq, ADecl.bitmask.injEq, SameDirective, ident_text_iff]
      rw [visitTypeInst_same _ _ hd he, visitValues_same]
    | _ =>
      simp only at kd ke
      obtain ⟨_, _, _, rfl⟩ := kd
      simp only [SameDirective, iff_false]
      intro h
      simp [← h] at ke
  | other d =>
    cases hx
    cases e with
    | other d' =>
      cases hy
      simp [SameDirective]
    | _ =>
      simp only at ke
      simp only [SameDirective, iff_false]
      intro h
      simp [← h] at ke

end Verif
