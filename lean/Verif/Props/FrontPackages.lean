import Verif.Props.FrontDecls

/-!
# C69: what is rejected and what is lost; C70: which declarations reach the generator
-/

namespace Verif

/-! ## What is rejected -/

/-- An array with the keyword `implicit`. -/
def ImplicitArray (f : CFieldTypeId) : Prop := f.implicit = true ∧ f.array ≠ none

/-- An alignment that is not a decimal literal up to 255. -/
def BadAlignment (f : CField) : Prop :=
  ∃ e, f.alignment = some e ∧ ∀ text, e = .literal .decimal text → text ≠ [] → text.all Char.isDigit = true →
    255 < decimalValue text

/-- Some field of the declaration is an implicit array or has a bad alignment. -/
def RejectedDirective : CDirective → Prop
  | .structure _ fs _ => ∃ f ∈ fs, ImplicitArray f.typeId ∨ BadAlignment f
  | .choice _ _ cs d _ => (∃ c ∈ cs, ∃ f, c.field = some f ∧ ImplicitArray f.typeId) ∨
      ∃ f, d = some (some f) ∧ ImplicitArray f.typeId
  | .union _ fs _ => ∃ f ∈ fs, ImplicitArray f.typeId
  | _ => False

theorem visitFieldTypeId_none (f : CFieldTypeId) : visitFieldTypeId f = none ↔ ImplicitArray f := by
  unfold visitFieldTypeId ImplicitArray
  cases f.array <;> simp

theorem visitAlignment_none (e : CExpr) : visitAlignment e = none ↔
    ∀ text, e = .literal .decimal text → text ≠ [] → text.all Char.isDigit = true → 255 < decimalValue text := by
  cases e with
  | literal kind text =>
    cases kind
    case decimal =>
      simp only [visitAlignment, visitExpr, TokenKind.tok, parseUint8, digitsValue_eq, CExpr.literal.injEq, true_and,
        forall_eq']
      by_cases h : text ≠ [] ∧ text.all Char.isDigit = true
      · rw [if_pos h]
        by_cases h2 : decimalValue text ≤ 255
        · rw [if_pos h2]
          simp only [reduceCtorEq, false_iff]
          intro h3
          have := h3 h.1 h.2
          omega
        · rw [if_neg h2]
          simp only [true_iff]
          intro _ _
          omega
      · rw [if_neg h]
        simp only [true_iff]
        intro h1 h2
        exact absurd ⟨h1, h2⟩ h
    all_goals simp [visitAlignment, visitExpr, TokenKind.tok]
  | _ => simp [visitAlignment, visitExpr, visitOne, visitTwo]

theorem visitField_none (f : CField) : visitField f = none ↔ ImplicitArray f.typeId ∨ BadAlignment f := by
  unfold visitField BadAlignment
  rw [← visitFieldTypeId_none]
  cases visitFieldTypeId f.typeId with
  | none => simp
  | some t =>
    cases ha : f.alignment with
    | none => simp
    | some e =>
      simp only [Option.bind_eq_bind, Option.bind_some, Option.pure_def, reduceCtorEq, false_or, Option.some.injEq,
        exists_eq_left']
      rw [← visitAlignment_none]
      cases visitAlignment e <;> simp

theorem visitAll_none {α β : Type} (f : α → Option β) (as : List α) : visitAll f as = none ↔ ∃ a ∈ as, f a = none := by
  induction as with
  | nil => simp [visitAll]
  | cons a as ih =>
    simp only [visitAll, Option.bind_eq_bind, Option.pure_def, List.mem_cons, exists_eq_or_imp, ← ih]
    cases f a <;> cases visitAll f as <;> simp

/-- **C69**: which declarations are rejected.  (By a panic: the error is a result that no caller expects.) -/
theorem C69_rejected (d : CDirective) : visitDirective d = none ↔ RejectedDirective d := by
  cases d with
  | «structure» h fs gs =>
    have := visitAll_none visitField fs
    simp only [visitField_none] at this
    simp only [visitDirective, RejectedDirective, ← this]
    cases visitAll visitField fs <;> simp
  | choice h s cs d gs =>
    have h1 : visitAll visitChoiceCases cs = none ↔ ∃ c ∈ cs, ∃ f, c.field = some f ∧ ImplicitArray f.typeId := by
      rw [visitAll_none]
      refine exists_congr fun c => and_congr_right fun _ => ?_
      unfold visitChoiceCases
      cases c.field with
      | none => simp [visitOptionField]
      | some f => simp [visitOptionField, visitChoiceField, visitFieldTypeId_none]
    have h2 : visitChoiceDefault d = none ↔ ∃ f, d = some (some f) ∧ ImplicitArray f.typeId := by
      match d with
      | none => simp [visitChoiceDefault]
      | some none => simp [visitChoiceDefault, visitOptionField]
      | some (some f) => simp [visitChoiceDefault, visitOptionField, visitChoiceField, visitFieldTypeId_none]
    simp only [visitDirective, RejectedDirective, ← h1, ← h2]
    cases visitAll visitChoiceCases cs <;> cases visitChoiceDefault d <;> simp
  | union h fs gs =>
    have := visitAll_none visitChoiceField fs
    simp only [visitChoiceField, visitFieldTypeId_none] at this
    simp only [visitDirective, RejectedDirective, ← this]
    cases visitAll visitChoiceField fs <;> simp
  | _ => simp [visitDirective, RejectedDirective]

/-! ### A schema with everything -/

def demoType : CTypeInst := ⟨.builtin (.word .uint8), .none⟩

/-- `uint8 size;` -/
def demoTypeId (name : String) (h : isIdText name.toList = true) : CFieldTypeId := ⟨false, false, demoType, ident name h, none⟩

/-- `align(8): optional uint8 a = 1 if b : a < 5;` with an offset and `extend` as given. -/
def demoField (offset : Option CExpr) (extend : Bool) : CField :=
  { alignment := some (.literal .decimal "8".toList)
    offset := offset
    extend := extend
    optional := true
    typeId := demoTypeId "a" rfl
    initializer := some (.literal .decimal "1".toList)
    optionalClause := some (.identifier (ident "b" rfl))
    constraint := some (.relational .lt (.identifier (ident "a" rfl)) (.literal .decimal "5".toList)) }

/-- `struct S { … };` -/
def demoStruct (fields : List CField) : CDirective := .structure ⟨ident "S" rfl, [], []⟩ fields []

/-- `packed bit:12 list[size];` with the keyword `packed` as given -/
def demoArray (packed : Bool) : CField :=
  { alignment := none
    offset := none
    extend := false
    optional := false
    typeId := ⟨packed, false, ⟨.builtin (.fixed false ⟨"12".toList, rfl⟩), .none⟩, ident "list" rfl,
      some (some (.identifier (ident "size" rfl)))⟩
    initializer := none
    optionalClause := none
    constraint := none }

theorem demo_legal (p : Bool) : LegalDirective (demoStruct [demoField none false, demoArray p]) := by
  refine ⟨by simp [LegalHead], ?_, by simp [LegalFunctions]⟩
  intro f hf
  simp only [List.mem_cons, List.not_mem_nil, or_false] at hf
  rcases hf with rfl | rfl
  · trivial
  · exact ⟨by decide, by decide⟩

example : ∃ x y, visitDirective (demoStruct [demoField none false, demoArray true]) = some x ∧
    visitDirective (demoStruct [demoField none false, demoArray false]) = some y ∧ x ≠ y := by
  refine ⟨_, _, rfl, rfl, ?_⟩
  rw [Ne, C69_same_partial _ _ _ _ (demo_legal true) (demo_legal false) rfl rfl]
  rintro ⟨-, h, -⟩
  cases h with
  | cons h1 h2 =>
    cases h2 with
    | cons h3 h4 =>
      have := h3.1.2.2.2 (by simp [demoArray])
      cases this

/-! ### What is lost -/

/-- **C69 is violated** by offsets: a field has the same syntax tree with every offset, and without. -/
theorem C69_violated_offset (f : CField) (offset : Option CExpr) : visitField { f with offset := offset } = visitField f := rfl

example : SameDirective (demoStruct [demoField none false])
    (demoStruct [demoField (some (.identifier (ident "o" rfl))) true]) := by
  refine ⟨⟨rfl, rfl, .nil⟩, .cons ?_ .nil, .nil⟩
  exact ⟨⟨rfl, ⟨rfl, rfl, rfl⟩, rfl, fun _ => rfl⟩, rfl, rfl, rfl, rfl, rfl⟩

/-- **C69 is violated** by constraints of fields of choices and unions: they are dropped. -/
theorem C69_violated_constraint (f : CChoiceField) (c : Option CExpr) :
    visitChoiceField { f with constraint := c } = visitChoiceField f := rfl

/-- **C69 is violated** by `@removed`: a removed enum item is like any other, and can be written. -/
theorem C69_violated_removed (i : CEnumItem) (m : Option EnumMark) : visitEnumItem { i with mark := m } = visitEnumItem i := rfl

/-- **C69 is violated** by declarations of SQL tables, SQL databases, services, publishers and rule groups: nothing is made of
them, and nothing is reported. -/
theorem C69_violated_dropped (d : COther) : visitDirective (.other d) = some none := rfl

/-- **C69 is violated** by widths above 255: `bit:256` and `bit:300` are taken for `bit:255` instead of being reported. -/
theorem C69_violated_width (signed : Bool) (width : DecimalText) (h : 255 < decimalValue width.text) :
    visitBuiltinText (CBuiltin.text (.fixed signed width)) =
      .mk true [] (if signed then "int".toList else "bit".toList) 255 [] [] none := by
  obtain ⟨h1, h2⟩ := fixed_text_span signed width
  have hd := decimalText_digits width.ok
  have hp : parseUint8 width.text = (255, false) := by
    simp only [parseUint8, digitsValue_eq]
    rw [if_pos hd, if_neg (by omega)]
  simp only [visitBuiltinText, h1, h2, hp]
  cases signed <;> simp

example : 255 < decimalValue (DecimalText.mk "300".toList rfl).text := by decide

/-- **C69 is violated** by implicit arrays and alignments in other notations: they end the program instead of being reported. -/
theorem C69_violated_panic :
    visitDirective (demoStruct [{ demoArray false with typeId := { (demoArray false).typeId with implicit := true } }]) = none ∧
    visitDirective (demoStruct [{ demoArray false with alignment := some (.literal .hexadecimal "0x8".toList) }]) = none :=
  ⟨rfl, rfl⟩

/-! ## Imports -/

/-- The names of an import that come before the last one, joined by dots. -/
theorem import_parts (first : Ident) (middle : List Ident) :
    ((first :: middle).flatMap fun n => [n.text, ['.']]).dropLast.flatten = qualifiedText first middle := by
  induction middle generalizing first with
  | nil => simp [qualifiedText]
  | cons m ms ih =>
    have h : ((first :: m :: ms).flatMap fun n => [n.text, ['.']]) =
        first.text :: ['.'] :: ((m :: ms).flatMap fun n => [n.text, ['.']]) := by simp
    rw [h, qualifiedText, ← ih m]
    simp

theorem import_children (i : CImport) : (i.children.drop 1).take (i.children.length - 3) =
    (i.first :: i.middle).flatMap fun n => [n.text, ['.']] := by
  unfold CImport.children
  simp only [List.cons_append, List.length_cons, List.length_append, List.length_nil, List.drop_succ_cons, List.drop_zero]
  rw [List.take_append_of_le_length (by omega), List.take_of_length_le (by omega)]

theorem import_last (first : Ident) (middle : List Ident) :
    ((first :: middle).flatMap fun n => [n.text, ['.']]).getLastD [] = ['.'] := by
  induction middle generalizing first with
  | nil => rfl
  | cons m ms ih =>
    have h : ((first :: m :: ms).flatMap fun n => [n.text, ['.']]) =
        [first.text, ['.']] ++ ((m :: ms).flatMap fun n => [n.text, ['.']]) := by simp
    have hne : ((m :: ms).flatMap fun n => [n.text, ['.']]) ≠ [] := by simp
    rw [h, List.getLastD_eq_getLast?, List.getLast?_append_of_ne_nil _ hne, ← List.getLastD_eq_getLast?]
    exact ih m

theorem visitImport_eq (i : CImport) :
    visitImport i = (qualifiedText i.first i.middle, match i.last with | none => ['*'] | some _ => ['.']) := by
  unfold visitImport
  rw [import_children]
  simp only [import_parts, import_last]
  cases i.last <;> rfl

/-- **C69** for imports: the package is kept, and whether all of it is imported; the name of a single imported symbol is not. -/
theorem C69_import_partial (i j : CImport) : visitImport i = visitImport j ↔
    i.first = j.first ∧ i.middle = j.middle ∧ (i.last = none ↔ j.last = none) := by
  rw [visitImport_eq, visitImport_eq, Prod.mk.injEq]
  have hq : qualifiedText i.first i.middle = qualifiedText j.first j.middle ↔ i.first = j.first ∧ i.middle = j.middle :=
    ⟨qualifiedText_inj, fun ⟨h1, h2⟩ => by rw [h1, h2]⟩
  rw [hq]
  cases i.last <;> cases j.last <;> simp

example : visitImport ⟨ident "a" rfl, [ident "b" rfl], none⟩ = ("a.b".toList, ['*']) := rfl

/-- **C69 is violated** by imports of one symbol: its name is lost, the symbol imported is called `.`. -/
theorem C69_violated_import (first : Ident) (middle : List Ident) (last : Ident) :
    visitImport ⟨first, middle, some last⟩ = (qualifiedText first middle, ['.']) := visitImport_eq _

/-! ## C70: packages -/

theorem find_putDecl (ds : List ADecl) (d : ADecl) (k : DeclKind) (n : List Char) :
    (putDecl ds d).find? (fun e => e.kind == k && e.name == n) =
      if d.kind = k ∧ d.name = n then some d else ds.find? (fun e => e.kind == k && e.name == n) := by
  unfold putDecl
  rw [List.find?_append, List.find?_filter]
  simp only [Bool.decide_and, Bool.decide_eq_true]
  by_cases h : d.kind = k ∧ d.name = n
  · obtain ⟨rfl, rfl⟩ := h
    rw [if_pos ⟨rfl, rfl⟩]
    have : (ds.find? fun a => !(a.kind == d.kind && a.name == d.name) && (a.kind == d.kind && a.name == d.name)) = none := by
      rw [List.find?_eq_none]
      intro x _
      cases (x.kind == d.kind && x.name == d.name) <;> simp
    rw [this]
    simp
  · rw [if_neg h]
    have h1 : (ds.find? fun a => !(a.kind == d.kind && a.name == d.name) && (a.kind == k && a.name == n)) =
        ds.find? (fun e => e.kind == k && e.name == n) := by
      congr 1
      funext a
      by_cases ha : a.kind = k ∧ a.name = n
      · obtain ⟨rfl, rfl⟩ := ha
        have : (a.kind == d.kind && a.name == d.name) = false := by
          rw [Bool.eq_false_iff]
          intro hc
          simp only [Bool.and_eq_true, beq_iff_eq] at hc
          exact h ⟨hc.1.symm, hc.2.symm⟩
        simp [this]
      · have : (a.kind == k && a.name == n) = false := by
          rw [Bool.eq_false_iff]
          intro hc
          simp only [Bool.and_eq_true, beq_iff_eq] at hc
          exact ha hc
        simp [this]
    have h2 : [d].find? (fun e => e.kind == k && e.name == n) = none := by
      simp only [List.find?_cons, List.find?_nil]
      have : (d.kind == k && d.name == n) = false := by
        rw [Bool.eq_false_iff]
        intro hc
        simp only [Bool.and_eq_true, beq_iff_eq] at hc
        exact h hc
      simp [this]
    rw [h1, h2]
    simp

/-- The declaration `d` of a schema declares `a`. -/
def Declares (d : CDirective) (a : ADecl) : Prop := visitDirective d = some (some a)

theorem visitDirectives_get (ds : List CDirective) (decls out : List ADecl) (h : visitDirectives decls ds = some out)
    (k : DeclKind) (n : List Char) (a : ADecl) :
    out.find? (fun e => e.kind == k && e.name == n) = some a ↔
      (∃ before d after, ds = before ++ d :: after ∧ Declares d a ∧ a.kind = k ∧ a.name = n ∧
        ∀ d' ∈ after, ∀ a', Declares d' a' → ¬ (a'.kind = k ∧ a'.name = n)) ∨
      (decls.find? (fun e => e.kind == k && e.name == n) = some a ∧
        ∀ d ∈ ds, ∀ a', Declares d a' → ¬ (a'.kind = k ∧ a'.name = n)) := by
  induction ds generalizing decls with
  | nil =>
    cases h
    simp
  | cons d ds ih =>
    simp only [visitDirectives] at h
    cases hd : visitDirective d with
    | none => simp [hd] at h
    | some x =>
      have step : ∀ decls', visitDirectives decls' ds = some out →
          (decls'.find? (fun e => e.kind == k && e.name == n) = some a ↔
            (Declares d a ∧ a.kind = k ∧ a.name = n) ∨
              (decls.find? (fun e => e.kind == k && e.name == n) = some a ∧
                ∀ a', Declares d a' → ¬ (a'.kind = k ∧ a'.name = n))) →
          (out.find? (fun e => e.kind == k && e.name == n) = some a ↔
            (∃ before d' after, d :: ds = before ++ d' :: after ∧ Declares d' a ∧ a.kind = k ∧ a.name = n ∧
              ∀ d' ∈ after, ∀ a', Declares d' a' → ¬ (a'.kind = k ∧ a'.name = n)) ∨
            (decls.find? (fun e => e.kind == k && e.name == n) = some a ∧
              ∀ d' ∈ d :: ds, ∀ a', Declares d' a' → ¬ (a'.kind = k ∧ a'.name = n))) := by
        intro decls' h' hg
        rw [ih decls' h', hg]
        constructor
        · rintro (⟨b, d', af, rfl, h1⟩ | ⟨(h1 | h1), h2⟩)
          · exact .inl ⟨d :: b, d', af, rfl, h1⟩
          · exact .inl ⟨[], d, ds, rfl, h1.1, h1.2.1, h1.2.2, h2⟩
          · refine .inr ⟨h1.1, ?_⟩
            intro d' hd'
            rcases List.mem_cons.1 hd' with rfl | hd'
            · exact h1.2
            · exact h2 d' hd'
        · rintro (⟨b, d', af, hb, h1⟩ | ⟨h1, h2⟩)
          · cases b with
            | nil =>
              simp only [List.nil_append, List.cons.injEq] at hb
              obtain ⟨rfl, rfl⟩ := hb
              exact .inr ⟨.inl ⟨h1.1, h1.2.1, h1.2.2.1⟩, h1.2.2.2⟩
            | cons b bs =>
              simp only [List.cons_append, List.cons.injEq] at hb
              obtain ⟨rfl, rfl⟩ := hb
              exact .inl ⟨bs, d', af, rfl, h1⟩
          · exact .inr ⟨.inr ⟨h1, h2 d (by simp)⟩, fun d' hd' => h2 d' (by simp [hd'])⟩
      cases x with
      | none =>
        simp only [hd, Option.bind_eq_bind, Option.bind_some] at h
        refine step decls h ?_
        have hno : ∀ a', ¬ Declares d a' := by
          intro a' ha'
          rw [Declares, hd] at ha'
          cases ha'
        constructor
        · exact fun hf => .inr ⟨hf, fun a' ha' => absurd ha' (hno a')⟩
        · rintro (h1 | h1)
          · exact absurd h1.1 (hno a)
          · exact h1.1
      | some c =>
        simp only [hd, Option.bind_eq_bind, Option.bind_some] at h
        refine step (putDecl decls c) h ?_
        rw [find_putDecl]
        have hc : ∀ a', Declares d a' ↔ a' = c := by
          intro a'
          rw [Declares, hd]
          simp [eq_comm]
        simp only [hc, forall_eq]
        by_cases hkn : c.kind = k ∧ c.name = n
        · rw [if_pos hkn]
          simp only [Option.some.injEq]
          constructor
          · rintro rfl
            exact .inl ⟨rfl, hkn⟩
          · rintro (h1 | h1)
            · exact h1.1.symm
            · exact absurd hkn h1.2
        · rw [if_neg hkn]
          constructor
          · exact fun hf => .inr ⟨hf, hkn⟩
          · rintro (h1 | h1)
            · obtain ⟨rfl, h2⟩ := h1
              exact absurd h2 hkn
            · exact h1.1

theorem visitPackage_some {c : CPackage} {p : APackage} (h : visitPackage c = some p) :
    ∃ first rest decls, c.name = some (first, rest) ∧ p.name = qualifiedText first rest ∧
      visitDirectives [] c.directives = some decls ∧ p = ⟨qualifiedText first rest, c.imports.map visitImport, decls⟩ := by
  simp only [visitPackage, Option.bind_eq_bind, Option.bind_eq_some_iff, Option.pure_def, Option.some.injEq] at h
  obtain ⟨⟨first, rest⟩, h1, decls, h2, h3⟩ := h
  exact ⟨first, rest, decls, h1, by rw [← h3], h2, h3.symm⟩

/-- **C70**, one package: what a name stands for, by kind of declaration, is what the *last* declaration of that kind and name in
the file says. -/
theorem C70_last (c : CPackage) (p : APackage) (h : visitPackage c = some p) (k : DeclKind) (n : List Char) (a : ADecl) :
    p.get k n = some a ↔ ∃ before d after, c.directives = before ++ d :: after ∧ Declares d a ∧ a.kind = k ∧ a.name = n ∧
      ∀ d' ∈ after, ∀ a', Declares d' a' → ¬ (a'.kind = k ∧ a'.name = n) := by
  obtain ⟨first, rest, decls, -, -, hd, rfl⟩ := visitPackage_some h
  have := visitDirectives_get c.directives [] decls hd k n a
  simp only [List.find?_nil, reduceCtorEq, false_and, or_false] at this
  exact this

/-- No two declarations of a file have the same kind and name. -/
def DistinctDecls (ds : List CDirective) : Prop :=
  ∀ before d after d' a a', ds = before ++ d :: after → d' ∈ after → Declares d a → Declares d' a' →
    ¬ (a'.kind = a.kind ∧ a'.name = a.name)

theorem get_of_distinct {c : CPackage} {p : APackage} (h : visitPackage c = some p) (hd : DistinctDecls c.directives)
    {d : CDirective} {a : ADecl} (hm : d ∈ c.directives) (ha : Declares d a) : p.get a.kind a.name = some a := by
  obtain ⟨before, after, hs⟩ := List.append_of_mem hm
  refine (C70_last c p h _ _ _).2 ⟨before, d, after, hs, ha, rfl, rfl, ?_⟩
  exact fun d' hd' a' ha' => hd before d after d' a a' hs hd' ha ha'

/-- What a name stands for in the scope of the package is one of its declarations. -/
theorem typeScope_some (p : APackage) (n : List Char) (a : ADecl) (h : p.typeScope n = some a) :
    ∃ k, p.get k n = some a := by
  unfold APackage.typeScope scopeOrder at h
  simp only [List.foldl_cons, List.foldl_nil] at h
  repeat' split at h
  all_goals cases h
  all_goals exact ⟨_, ‹_›⟩

theorem typeScope_unique (p : APackage) (n : List Char) (a : ADecl) (k : DeclKind) (h : p.get k n = some a)
    (hu : ∀ k', k' ≠ k → p.get k' n = none) : p.typeScope n = some a := by
  unfold APackage.typeScope scopeOrder
  simp only [List.foldl_cons, List.foldl_nil]
  cases k <;>
    simp [h, hu .const, hu .instantiate, hu .struct, hu .enum, hu .union, hu .bitmask, hu .choice]

theorem typeScope_none (p : APackage) (n : List Char) : p.typeScope n = none ↔ ∀ k, p.get k n = none := by
  constructor
  · intro h k
    by_contra hk
    obtain ⟨a, ha⟩ := Option.ne_none_iff_exists'.1 hk
    unfold APackage.typeScope scopeOrder at h
    simp only [List.foldl_cons, List.foldl_nil] at h
    repeat' split at h
    all_goals first
      | exact Option.some_ne_none _ h
      | (cases k <;> simp_all)
  · intro h
    by_contra hk
    obtain ⟨a, ha⟩ := Option.ne_none_iff_exists'.1 hk
    obtain ⟨k, hk⟩ := typeScope_some p n a ha
    rw [h k] at hk
    cases hk

/-- **C70**: a name is known in a package exactly if the file declares it. -/
theorem C70_known (c : CPackage) (p : APackage) (h : visitPackage c = some p) (n : List Char) :
    p.typeScope n ≠ none ↔ ∃ d ∈ c.directives, ∃ a, Declares d a ∧ a.name = n := by
  constructor
  · intro hn
    obtain ⟨a, ha⟩ := Option.ne_none_iff_exists'.1 hn
    obtain ⟨k, hk⟩ := typeScope_some p n a ha
    obtain ⟨b, d, af, hs, hd, -, hname, -⟩ := (C70_last c p h k n a).1 hk
    exact ⟨d, by simp [hs], a, hd, hname⟩
  · rintro ⟨d, hm, a, ha, rfl⟩ hnone
    rw [typeScope_none] at hnone
    obtain ⟨first, rest, decls, -, -, hd, rfl⟩ := visitPackage_some h
    have hk := hnone a.kind
    -- the last declaration with that kind and name is found
    have key : ∀ (ds : List CDirective) (out0 out : List ADecl), visitDirectives out0 ds = some out → d ∈ ds →
        out.find? (fun e => e.kind == a.kind && e.name == a.name) ≠ none := by
      intro ds
      induction ds with
      | nil => intro _ _ _ hm; cases hm
      | cons e ds ih =>
        intro out0 out hv hm
        by_cases hlater : d ∈ ds
        · simp only [visitDirectives, Option.bind_eq_bind, Option.bind_eq_some_iff] at hv
          obtain ⟨x, -, hx⟩ := hv
          cases x with
          | none => exact ih _ _ hx hlater
          | some y => exact ih _ _ hx hlater
        · have : d = e := by
            rcases List.mem_cons.1 hm with h | h
            · exact h
            · exact absurd h hlater
          subst this
          simp only [visitDirectives, show visitDirective d = some (some a) from ha, Option.bind_eq_bind,
            Option.bind_some] at hv
          -- once there, the key stays
          have stay : ∀ (ds : List CDirective) (out0 out : List ADecl), visitDirectives out0 ds = some out →
              out0.find? (fun e => e.kind == a.kind && e.name == a.name) ≠ none →
              out.find? (fun e => e.kind == a.kind && e.name == a.name) ≠ none := by
            intro ds
            induction ds with
            | nil => intro _ _ hv hn; cases hv; exact hn
            | cons e ds ih2 =>
              intro out0 out hv hn
              simp only [visitDirectives, Option.bind_eq_bind, Option.bind_eq_some_iff] at hv
              obtain ⟨x, -, hx⟩ := hv
              cases x with
              | none => exact ih2 _ _ hx hn
              | some y =>
                refine ih2 _ _ hx ?_
                rw [find_putDecl]
                split_ifs
                · simp
                · exact hn
          refine stay ds _ out hv ?_
          rw [find_putDecl]
          simp
    exact key c.directives [] decls hd hm hk

/-- No two declarations of a file have the same name. -/
def DistinctNames (ds : List CDirective) : Prop :=
  ∀ before d after d' a a', ds = before ++ d :: after → d' ∈ after → Declares d a → Declares d' a' → a'.name ≠ a.name

theorem find_putPackage (m : List APackage) (p : APackage) (n : List Char) :
    getPackage (putPackage m p) n = if p.name = n then some p else getPackage m n := by
  unfold getPackage putPackage
  rw [List.find?_append, List.find?_filter]
  simp only [Bool.decide_and, Bool.decide_eq_true]
  by_cases h : p.name = n
  · subst h
    rw [if_pos rfl]
    have : (m.find? fun a => !(a.name == p.name) && (a.name == p.name)) = none := by
      rw [List.find?_eq_none]
      intro x _
      cases (x.name == p.name) <;> simp
    rw [this]
    simp
  · rw [if_neg h]
    have h1 : (m.find? fun a => !(a.name == p.name) && (a.name == n)) = m.find? (fun e => e.name == n) := by
      congr 1
      funext a
      by_cases ha : a.name = n
      · subst ha
        have : (a.name == p.name) = false := by simpa using fun hc => h hc.symm
        simp [this]
      · simp [ha]
    rw [h1]
    simp [h]

theorem loadPackages_get (cs : List CPackage) (m out : List APackage) (h : loadPackages m cs = some out) (n : List Char)
    (p : APackage) : getPackage out n = some p ↔
      (∃ before c after, cs = before ++ c :: after ∧ visitPackage c = some p ∧ p.name = n ∧
        ∀ c' ∈ after, ∀ p', visitPackage c' = some p' → p'.name ≠ n) ∨
      (getPackage m n = some p ∧ ∀ c ∈ cs, ∀ p', visitPackage c = some p' → p'.name ≠ n) := by
  induction cs generalizing m with
  | nil =>
    cases h
    simp
  | cons c cs ih =>
    simp only [loadPackages, Option.bind_eq_bind, Option.bind_eq_some_iff] at h
    obtain ⟨q, hq, h⟩ := h
    rw [ih _ h, find_putPackage]
    constructor
    · rintro (⟨b, d, af, rfl, h1⟩ | ⟨h1, h2⟩)
      · exact .inl ⟨c :: b, d, af, rfl, h1⟩
      · by_cases hn : q.name = n
        · rw [if_pos hn] at h1
          cases h1
          exact .inl ⟨[], c, cs, rfl, hq, hn, h2⟩
        · rw [if_neg hn] at h1
          refine .inr ⟨h1, ?_⟩
          intro c' hc'
          rcases List.mem_cons.1 hc' with rfl | hc'
          · intro p' hp'
            rw [hq] at hp'
            cases hp'
            exact hn
          · exact h2 c' hc'
    · rintro (⟨b, d, af, hb, h1⟩ | ⟨h1, h2⟩)
      · cases b with
        | nil =>
          simp only [List.nil_append, List.cons.injEq] at hb
          obtain ⟨rfl, rfl⟩ := hb
          obtain ⟨h1, h2, h3⟩ := h1
          rw [hq] at h1
          cases h1
          exact .inr ⟨by rw [if_pos h2], h3⟩
        | cons b bs =>
          simp only [List.cons_append, List.cons.injEq] at hb
          obtain ⟨rfl, rfl⟩ := hb
          exact .inl ⟨bs, d, af, rfl, h1⟩
      · refine .inr ⟨?_, fun c' hc' => h2 c' (by simp [hc'])⟩
        rw [if_neg (h2 c (by simp) q hq)]
        exact h1

/-- **C70**, all files: what a package name stands for is what the *last* file of that package says. -/
theorem C70_last_package (cs : List CPackage) (m : List APackage) (h : loadPackages [] cs = some m) (n : List Char)
    (p : APackage) : getPackage m n = some p ↔ ∃ before c after, cs = before ++ c :: after ∧ visitPackage c = some p ∧
      p.name = n ∧ ∀ c' ∈ after, ∀ p', visitPackage c' = some p' → p'.name ≠ n := by
  rw [loadPackages_get cs [] m h n p]
  simp [getPackage]

/-- The files are of different packages. -/
def DistinctPackages (cs : List CPackage) : Prop := cs.Pairwise fun c c' => c.name ≠ c'.name

/-- **C70**: if the files are of different packages, and names are declared once in each file, then every declaration of
every file is found under the name of the package and its own name.

Missing from the claim: several files of one package, and reports of names declared twice (see the violations below). -/
theorem C70_found_partial (cs : List CPackage) (m : List APackage) (h : loadPackages [] cs = some m)
    (hp : DistinctPackages cs) (hn : ∀ c ∈ cs, DistinctNames c.directives) (c : CPackage) (hc : c ∈ cs)
    (d : CDirective) (hd : d ∈ c.directives) (a : ADecl) (ha : Declares d a) :
    ∃ first rest p, c.name = some (first, rest) ∧ getPackage m (qualifiedText first rest) = some p ∧
      p.typeScope a.name = some a := by
  obtain ⟨before, after, hs⟩ := List.append_of_mem hc
  have hall : ∀ (cs : List CPackage) (m0 m : List APackage), loadPackages m0 cs = some m → ∀ c ∈ cs, ∃ p, visitPackage c = some p := by
    intro cs
    induction cs with
    | nil => intro _ _ _ c hc; cases hc
    | cons c' cs ih =>
      intro m0 m h c hc
      simp only [loadPackages, Option.bind_eq_bind, Option.bind_eq_some_iff] at h
      obtain ⟨q, hq, h⟩ := h
      rcases List.mem_cons.1 hc with rfl | hc
      · exact ⟨q, hq⟩
      · exact ih _ _ h c hc
  obtain ⟨p, hpc⟩ := hall cs [] m h c hc
  obtain ⟨first, rest, decls, hname, hpn, -, -⟩ := visitPackage_some hpc
  refine ⟨first, rest, p, hname, ?_, ?_⟩
  · refine (C70_last_package cs m h _ p).2 ⟨before, c, after, hs, hpc, hpn, ?_⟩
    intro c' hc' p' hp' heq
    obtain ⟨first', rest', decls', hname', hpn', -, -⟩ := visitPackage_some hp'
    rw [hpn'] at heq
    obtain ⟨rfl, rfl⟩ := qualifiedText_inj heq
    rw [hs] at hp
    have := (List.pairwise_append.1 hp).2.1
    exact (List.pairwise_cons.1 this).1 c' hc' (by rw [hname, hname'])
  · have hdist : DistinctDecls c.directives := fun b d af d' a a' h1 h2 h3 h4 h5 => hn c hc b d af d' a a' h1 h2 h3 h4 h5.2
    refine typeScope_unique p a.name a a.kind (get_of_distinct hpc hdist hd ha) ?_
    intro k' hk'
    by_contra hne
    obtain ⟨a', ha'⟩ := Option.ne_none_iff_exists'.1 hne
    obtain ⟨b, d', af, hs', hd', hkind, hname', -⟩ := (C70_last c p hpc _ _ _).1 ha'
    have hneq : d ≠ d' := by
      rintro rfl
      have : a = a' := by simpa [Declares, ha] using hd'.symm.trans ha |>.symm
      subst this
      exact hk' hkind.symm
    rw [hs'] at hd
    rcases List.mem_append.1 hd with hb | hb
    · obtain ⟨b1, b2, rfl⟩ := List.append_of_mem hb
      exact hn c hc b1 d (b2 ++ d' :: af) d' a a' (by rw [hs']; simp) (by simp) ha hd' hname'
    · rcases List.mem_cons.1 hb with hb | hb
      · exact hneq hb
      · exact hn c hc b d' af d a' a hs' hb hd' ha hname'.symm

/-! ### Cases -/

/-- `const uint8 <name> = <value>;` -/
def demoConst (name : String) (value : String) (h : isIdText name.toList = true) : CDirective :=
  .const demoType (ident name h) (.literal .decimal value.toList)

def demoFile (pkg : String) (hp : isIdText pkg.toList = true) (ds : List CDirective) : CPackage :=
  { compatibility := none, name := some (ident pkg hp, []), imports := [], directives := ds }

def demoFiles : List CPackage :=
  [demoFile "a" rfl [demoConst "N" "1" rfl, demoStruct [demoArray false]],
   demoFile "b" rfl [demoConst "N" "2" rfl, .other (.service (ident "Svc" rfl) [])]]

example : ∃ m, loadPackages [] demoFiles = some m ∧
    ((getPackage m "a".toList).bind fun p => p.typeScope "N".toList) =
      some (.const "N".toList (.mk true [] "uint8".toList 0 [] [] none) (.leaf .decimalLiteral "1".toList)) := by
  refine ⟨_, rfl, ?_⟩
  rfl

/-- **C70 is violated** by two declarations of the same kind and name in a file: the first is dropped without a report. -/
theorem C70_violated_duplicate : ∃ p, visitPackage (demoFile "a" rfl [demoConst "N" "1" rfl, demoConst "N" "2" rfl]) = some p ∧
    p.decls.length = 1 ∧ ∃ a, Declares (demoConst "N" "2" rfl) a ∧ p.typeScope "N".toList = some a := by
  exact ⟨_, rfl, rfl, _, rfl, rfl⟩

/-- **C70 is violated** by a constant and a structure of the same name: the name stands for the structure, whatever the order,
and nothing is reported. -/
theorem C70_violated_kinds : ∃ p, visitPackage (demoFile "a" rfl [demoStruct [], demoConst "S" "1" rfl]) = some p ∧
    ∃ a, Declares (demoStruct []) a ∧ p.typeScope "S".toList = some a := by
  exact ⟨_, rfl, _, rfl, rfl⟩

/-- **C70 is violated** by two files of one package: nothing of the first is left, and nothing is reported. -/
theorem C70_violated_files : ∃ m, loadPackages [] [demoFile "a" rfl [demoConst "N" "1" rfl], demoFile "a" rfl [demoStruct []]] = some m ∧
    ∃ p, getPackage m "a".toList = some p ∧ p.typeScope "N".toList = none := by
  exact ⟨_, rfl, _, rfl, rfl⟩

/-- **C70 is violated** by a file without a package name, which the grammar admits: the program ends with a panic. -/
theorem C70_violated_unnamed (compat : Option (List Char)) (imports : List CImport) (ds : List CDirective) :
    visitPackage ⟨compat, none, imports, ds⟩ = none := rfl

end Verif
