import Verif.Props.FrontPackages
import Mathlib.Data.Option.Basic

/-!
# C69: the syntax tree says what the schema says

`C69_same_partial` compares two declarations.  Here a declaration is compared with its syntax tree: `ReadsAs a d` says what each
part of the tree has to be, in terms of what the rest of the compiler takes it for (`unvisit` for expressions by their token types,
`ATypeRef.meaning?` for builtin types, package and name for others).
-/

namespace Verif

/-- **C69**, expressions: the tree of an expression stands for that expression, operator by operator and operand by operand. -/
theorem C69_expression_read (e : CExpr) : unvisit (visitExpr e) = some e := unvisit_visit e

example : unvisit (visitExpr (.additive .minus (.identifier (ident "a" rfl)) (.literal .decimal "1".toList))) =
    some (.additive .minus (.identifier (ident "a" rfl)) (.literal .decimal "1".toList)) := C69_expression_read _

/-- The tree stands for the expression. -/
def ReadsExpr (a : AExpr) (e : CExpr) : Prop := unvisit a = some e

/-- The names before the last one. -/
def beforeLast (first : Ident) : List Ident → List Ident
  | [] => []
  | next :: rest => first :: beforeLast next rest

/-- The last name. -/
def lastName (first : Ident) : List Ident → Ident
  | [] => first
  | next :: rest => lastName next rest

/-- Names joined by dots. -/
def dotted : List Ident → List Char
  | [] => []
  | [n] => n.text
  | n :: ns => n.text ++ ['.'] ++ dotted ns

mutual
/-- The reference stands for the type: a builtin type with the same meaning, or the package and name of another one, with template
arguments that stand for those written. -/
def ReadsType : ATypeRef → CTypeRef → Prop
  | .mk isBuiltin pkg name bits targs args length, .builtin b =>
    isBuiltin = true ∧ pkg = [] ∧ targs = [] ∧
      (ATypeRef.mk isBuiltin pkg name bits targs args length).meaning? = some b.meaning
  | .mk isBuiltin pkg name bits targs _ _, .named first rest ts =>
    isBuiltin = false ∧ pkg = dotted (beforeLast first rest) ∧ name = (lastName first rest).text ∧ bits = 0 ∧ ReadsTypes targs ts

/-- The same for lists. -/
def ReadsTypes : List ATypeRef → List CTypeRef → Prop
  | [], [] => True
  | a :: as, t :: ts => ReadsType a t ∧ ReadsTypes as ts
  | _, _ => False
end

/-- The type arguments of a reference. -/
def ATypeRef.args : ATypeRef → List AExpr
  | .mk _ _ _ _ _ args _ => args

/-- The dynamic length of a reference. -/
def ATypeRef.dynamicLength : ATypeRef → Option AExpr
  | .mk _ _ _ _ _ _ length => length

/-- The reference stands for the type with its arguments. -/
def ReadsInst (a : ATypeRef) (t : CTypeInst) : Prop :=
  ReadsType a t.type ∧ List.Forall₂ ReadsExpr a.args (t.args.list.map CTypeArg.expr) ∧
    Option.Rel ReadsExpr a.dynamicLength t.args.length

/-- The field stands for the type, name and array kind. -/
def ReadsTypeId (a : AField) (f : CFieldTypeId) : Prop :=
  a.name = f.name.text ∧ ReadsInst a.type f.type ∧
    Option.Rel (fun x length => x.packed = f.packed ∧ Option.Rel ReadsExpr x.length length) a.array f.array

/-- The field stands for the field of a structure.  **Not in the tree**: offset and `extend`. -/
def ReadsField (a : AField) (f : CField) : Prop :=
  ReadsTypeId a f.typeId ∧ a.optional = f.optional ∧ a.alignment = alignedTo f.alignment ∧
    Option.Rel ReadsExpr a.initializer f.initializer ∧ Option.Rel ReadsExpr a.optionalClause f.optionalClause ∧
    Option.Rel ReadsExpr a.constraint f.constraint

/-- The field stands for the field of a choice or union, so it is there always and nothing else is known of it.  **Not in the
tree**: the constraint. -/
def ReadsChoiceField (a : AField) (f : CChoiceField) : Prop :=
  ReadsTypeId a f.typeId ∧ a.optional = false ∧ a.alignment = 0 ∧ a.initializer = none ∧ a.optionalClause = none

def ReadsParam (a : AParam) (p : CParam) : Prop := a.name = p.name.text ∧ ReadsType a.type p.type

def ReadsFunction (a : AFunction) (g : CFunction) : Prop :=
  a.name = g.name.text ∧ ReadsType a.returnType g.type ∧ ReadsExpr a.result g.result

def ReadsCases (a : AChoiceCase) (c : CChoiceCases) : Prop :=
  List.Forall₂ ReadsExpr a.conditions (c.first :: c.others) ∧ Option.Rel ReadsChoiceField a.field c.field

def ReadsDefault (a : AChoiceCase) (f : Option CChoiceField) : Prop :=
  a.conditions = [] ∧ Option.Rel ReadsChoiceField a.field f

/-- The tree stands for the declaration. -/
def ReadsAs : ADecl → CDirective → Prop
  | .const n t v, .const type name value => n = name.text ∧ ReadsInst t type ∧ ReadsExpr v value
  | .subtype n t, .subtype type name => n = name.text ∧ ReadsType t type
  | .instantiate n t, .instantiate type name => n = name.text ∧ ReadsType t type
  | .struct n tps ps fs gs, .structure head fields functions =>
    n = head.name.text ∧ tps = head.templateParams.map Ident.text ∧ List.Forall₂ ReadsParam ps head.typeParams ∧
      List.Forall₂ ReadsField fs fields ∧ List.Forall₂ ReadsFunction gs functions
  | .union n tps ps fs gs, .union head fields functions =>
    n = head.name.text ∧ tps = head.templateParams.map Ident.text ∧ List.Forall₂ ReadsParam ps head.typeParams ∧
      List.Forall₂ ReadsChoiceField fs fields ∧ List.Forall₂ ReadsFunction gs functions
  | .choice n tps ps s cs d gs, .choice head selector cases default functions =>
    n = head.name.text ∧ tps = head.templateParams.map Ident.text ∧ List.Forall₂ ReadsParam ps head.typeParams ∧
      ReadsExpr s selector ∧ List.Forall₂ ReadsCases cs cases ∧ Option.Rel ReadsDefault d default ∧
      List.Forall₂ ReadsFunction gs functions
  | .enum n t is, .enum type name items =>
    n = name.text ∧ ReadsInst t type ∧
      List.Forall₂ (fun (a : AItem) (i : CEnumItem) => a.name = i.name.text ∧ Option.Rel ReadsExpr a.value i.value) is items
  | .bitmask n t vs, .bitmask type name values =>
    n = name.text ∧ ReadsInst t type ∧
      List.Forall₂ (fun (a : AItem) (i : CBitmaskValue) => a.name = i.name.text ∧ Option.Rel ReadsExpr a.value i.value) vs values
  | _, _ => False

/-! ## Proof -/

theorem qualifiedText_dotted (first : Ident) (rest : List Ident) : qualifiedText first rest = dotted (first :: rest) := by
  induction rest generalizing first with
  | nil => rfl
  | cons n ns ih => simp [qualifiedText, dotted, ih]

theorem dotted_beforeLast (first next : Ident) (rest : List Ident) :
    dotted (first :: next :: rest) = dotted (beforeLast first (next :: rest)) ++ '.' :: (lastName next rest).text := by
  induction rest generalizing first next with
  | nil => simp [dotted, beforeLast, lastName]
  | cons n ns ih =>
    rw [dotted, ih]
    · simp [beforeLast, lastName, dotted]
    · simp

theorem splitName_last (before : List Char) (i : Ident) : splitName (before ++ '.' :: i.text) = (before, i.text) := by
  have h : (before ++ '.' :: i.text).reverse = i.text.reverse ++ '.' :: before.reverse := by simp
  have hi : ∀ c ∈ i.text.reverse, c ≠ '.' := fun c hc => ident_no_dot i c (List.mem_reverse.1 hc)
  unfold splitName
  rw [h, List.takeWhile_append_of_pos (by simpa using hi), List.dropWhile_append_of_pos (by simpa using hi)]
  simp

theorem splitName_qualified (first : Ident) (rest : List Ident) :
    splitName (qualifiedText first rest) = (dotted (beforeLast first rest), (lastName first rest).text) := by
  rw [qualifiedText_dotted]
  cases rest with
  | nil =>
    have hi : ∀ c ∈ first.text.reverse, c ≠ '.' := fun c hc => ident_no_dot first c (List.mem_reverse.1 hc)
    have : (dotted [first]).reverse.dropWhile (· ≠ '.') = [] := by
      rw [List.dropWhile_eq_nil_iff]
      simpa [dotted] using hi
    unfold splitName
    rw [this]
    simp [dotted, beforeLast, lastName]
  | cons n ns =>
    rw [dotted_beforeLast, splitName_last]
    rfl

mutual
theorem visitTypeRef_reads (t : CTypeRef) (h : LegalType t) : ReadsType (visitTypeRef t) t := by
  match t with
  | .builtin b =>
    rw [visitTypeRef]
    obtain ⟨n, bits, hb⟩ := visitBuiltin_builtin b.text
    rw [hb, ReadsType, ← hb, visitBuiltin_ref b h, ref_meaning b h]
    exact ⟨rfl, rfl, rfl, rfl⟩
  | .named first rest ts =>
    rw [visitTypeRef]
    simp only [splitName_qualified, ReadsType, true_and]
    exact visitTypeRefs_reads ts (by simpa only [LegalType] using h)

theorem visitTypeRefs_reads (ts : List CTypeRef) (h : LegalTypes ts) : ReadsTypes (visitTypeRefs ts) ts := by
  match ts with
  | [] => trivial
  | t :: ts =>
    simp only [LegalTypes] at h
    exact ⟨visitTypeRef_reads t h.1, visitTypeRefs_reads ts h.2⟩
end

theorem readsType_withArgs (a : ATypeRef) (t : CTypeRef) (args : List AExpr) (length : Option AExpr) (h : ReadsType a t) :
    ReadsType (a.withArgs args length) t := by
  obtain ⟨b, p, n, bits, targs, as, l⟩ := a
  cases t with
  | builtin c => simpa only [ATypeRef.withArgs, ReadsType, ATypeRef.meaning?] using h
  | named f r ts => simpa only [ATypeRef.withArgs, ReadsType] using h

theorem map_reads (es : List CExpr) : List.Forall₂ ReadsExpr (es.map visitExpr) es := by
  induction es with
  | nil => exact .nil
  | cons e es ih => exact .cons (unvisit_visit e) ih

theorem option_reads (e : Option CExpr) : Option.Rel ReadsExpr (e.map visitExpr) e := by
  cases e with
  | none => exact .none
  | some e => exact .some (unvisit_visit e)

theorem visitTypeInst_reads (t : CTypeInst) (h : LegalType t.type) : ReadsInst (visitTypeInst t) t := by
  rw [visitTypeInst_eq]
  refine ⟨readsType_withArgs _ _ _ _ (visitTypeRef_reads t.type h), ?_, ?_⟩
  · cases visitTypeRef t.type
    exact map_reads _
  · cases visitTypeRef t.type
    exact option_reads _

theorem visitFieldTypeId_reads (f : CFieldTypeId) (h : LegalType f.type.type) (a : AField) (ha : visitFieldTypeId f = some a) :
    ReadsTypeId a f := by
  unfold visitFieldTypeId at ha
  cases hf : f.array with
  | none =>
    rw [hf] at ha
    cases ha
    exact ⟨rfl, visitTypeInst_reads _ h, by rw [hf]; exact .none⟩
  | some l =>
    rw [hf] at ha
    simp only at ha
    split_ifs at ha
    cases ha
    exact ⟨rfl, visitTypeInst_reads _ h, by rw [hf]; exact .some ⟨rfl, option_reads _⟩⟩

theorem visitField_reads (f : CField) (h : LegalType f.typeId.type.type) (a : AField) (ha : visitField f = some a) :
    ReadsField a f := by
  obtain ⟨t, ht, rfl⟩ := visitField_some ha
  obtain ⟨h1, h2, h3⟩ := visitFieldTypeId_reads _ h t ht
  exact ⟨⟨h1, h2, h3⟩, rfl, rfl, option_reads _, option_reads _, option_reads _⟩

theorem visitChoiceField_reads (f : CChoiceField) (h : LegalChoiceField f) (a : AField) (ha : visitChoiceField f = some a) :
    ReadsChoiceField a f := by
  obtain ⟨h1, h2, h3, h4, h5⟩ := visitFieldTypeId_plain ha
  exact ⟨visitFieldTypeId_reads _ h a ha, h1, h2, h3, h5⟩

theorem visitAll_reads {α β : Type} (f : α → Option β) (R : β → α → Prop) (P : α → Prop)
    (hf : ∀ a, P a → ∀ b, f a = some b → R b a) (as : List α) (hp : ∀ a ∈ as, P a) (bs : List β)
    (h : visitAll f as = some bs) : List.Forall₂ R bs as := by
  induction as generalizing bs with
  | nil =>
    cases h
    exact .nil
  | cons a as ih =>
    simp only [visitAll, Option.bind_eq_bind, Option.bind_eq_some_iff, Option.pure_def, Option.some.injEq] at h
    obtain ⟨b, h1, bs', h2, rfl⟩ := h
    exact .cons (hf a (hp a (by simp)) b h1) (ih (fun a ha => hp a (by simp [ha])) bs' h2)

theorem map_forall {α β : Type} (f : α → β) (R : β → α → Prop) (as : List α) (h : ∀ a ∈ as, R (f a) a) :
    List.Forall₂ R (as.map f) as := by
  induction as with
  | nil => exact .nil
  | cons a as ih => exact .cons (h a (by simp)) (ih fun b hb => h b (by simp [hb]))

theorem visitOptionField_reads (f : Option CChoiceField) (h : ∀ x ∈ f, LegalChoiceField x) (a : Option AField)
    (ha : visitOptionField f = some a) : Option.Rel ReadsChoiceField a f := by
  cases f with
  | none =>
    cases ha
    exact .none
  | some f =>
    simp only [visitOptionField, Option.map_eq_some_iff] at ha
    obtain ⟨x, hx, rfl⟩ := ha
    exact .some (visitChoiceField_reads f (h f rfl) x hx)

/-- **C69** (except for the parts named at `ReadsField`, `ReadsChoiceField` and for marks of enum items): the syntax tree of a
declaration stands for that declaration, part by part. -/
theorem C69_read_partial (d : CDirective) (a : ADecl) (h : LegalDirective d) (ha : Declares d a) : ReadsAs a d := by
  have params : ∀ ps : List CParam, (∀ p ∈ ps, LegalType p.type) → List.Forall₂ ReadsParam (ps.map visitParam) ps :=
    fun ps hps => map_forall _ _ _ fun p hp => ⟨rfl, visitTypeRef_reads _ (hps p hp)⟩
  have funs : ∀ gs : List CFunction, LegalFunctions gs → List.Forall₂ ReadsFunction (gs.map visitFunction) gs :=
    fun gs hgs => map_forall _ _ _ fun g hg => ⟨rfl, visitTypeRef_reads _ (hgs g hg), unvisit_visit _⟩
  cases d with
  | const t n v =>
    cases ha
    exact ⟨rfl, visitTypeInst_reads t h, unvisit_visit v⟩
  | subtype t n =>
    cases ha
    exact ⟨rfl, visitTypeRef_reads t h⟩
  | instantiate t n =>
    cases ha
    exact ⟨rfl, visitTypeRef_reads t h⟩
  | «structure» hd fs gs =>
    obtain ⟨xs, hx, he⟩ := visit_structure ha
    cases he
    exact ⟨rfl, rfl, params _ h.1, visitAll_reads _ _ _ visitField_reads fs h.2.1 xs hx, funs _ h.2.2⟩
  | choice hd s cs df gs =>
    obtain ⟨xs, dx, hx, hdx, he⟩ := visit_choice ha
    cases he
    refine ⟨rfl, rfl, params _ h.1, unvisit_visit s, ?_, ?_, funs _ h.2.2.2⟩
    · refine visitAll_reads visitChoiceCases ReadsCases (fun c => ∀ f ∈ c.field, LegalChoiceField f) ?_ cs h.2.1 xs hx
      intro c hc b hb
      simp only [visitChoiceCases, Option.map_eq_some_iff] at hb
      obtain ⟨f, hf, rfl⟩ := hb
      exact ⟨map_reads _, visitOptionField_reads _ hc _ hf⟩
    · cases df with
      | none =>
        cases hdx
        exact .none
      | some o =>
        simp only [visitChoiceDefault, Option.map_eq_some_iff] at hdx
        obtain ⟨f, hf, rfl⟩ := hdx
        exact .some ⟨rfl, visitOptionField_reads _ (h.2.2.1 o rfl) _ hf⟩
  | union hd fs gs =>
    obtain ⟨xs, hx, he⟩ := visit_union ha
    cases he
    exact ⟨rfl, rfl, params _ h.1, visitAll_reads _ _ _ visitChoiceField_reads fs h.2.1 xs hx, funs _ h.2.2⟩
  | enum t n is =>
    cases ha
    exact ⟨rfl, visitTypeInst_reads t h, map_forall _ _ _ fun i _ => ⟨rfl, option_reads _⟩⟩
  | bitmask t n vs =>
    cases ha
    exact ⟨rfl, visitTypeInst_reads t h, map_forall _ _ _ fun i _ => ⟨rfl, option_reads _⟩⟩
  | other _ => cases ha

example : ∃ a, Declares (demoStruct [demoField none false, demoArray true]) a ∧
    ReadsAs a (demoStruct [demoField none false, demoArray true]) := by
  refine ⟨_, rfl, ?_⟩
  exact C69_read_partial _ _ (demo_legal true) rfl

/-- **C69** for imports: the package is what is written before the last dot. -/
theorem C69_import_read (i : CImport) : (visitImport i).1 = dotted (i.first :: i.middle) ∧
    ((visitImport i).2 = ['*'] ↔ i.last = none) := by
  rw [visitImport_eq, qualifiedText_dotted]
  cases i.last <;> simp

example : (visitImport ⟨ident "a" rfl, [ident "b" rfl], none⟩).1 = "a.b".toList := (C69_import_read _).1

end Verif
