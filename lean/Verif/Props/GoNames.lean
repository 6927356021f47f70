import Verif.GoNames
import Verif.Props.Names
import Verif.Props.FrontRead

/-!
# C72-C75: names in Go
-/

namespace Verif

/-- The name begins with a lower-case letter. -/
def StartsLower (n : List Char) : Prop := ∃ c cs, n = c :: cs ∧ isLow c = true

/-- The name begins with a capital letter, which is what Go makes visible to other packages. -/
def Exported (n : List Char) : Prop := ∃ c cs, n = c :: cs ∧ isCap c = true

/-- The name begins with a letter. -/
def StartsWithLetter (n : List Char) : Prop := ∃ c cs, n = c :: cs ∧ (isLow c = true ∨ isCap c = true)

theorem toCap_facts (c : Char) (h : isLow c = true) : isCap (toCap c) = true ∧ isLow (toCap c) = false ∧ toCap c ≠ c := by
  simp only [isLow, Bool.and_eq_true, decide_eq_true_eq] at h
  have h1 : 97 ≤ c.toNat := h.1
  have h2 : c.toNat ≤ 122 := h.2
  have key : ∀ n, n < 123 → 97 ≤ n → isCap (toCap (Char.ofNat n)) = true ∧ isLow (toCap (Char.ofNat n)) = false ∧
      toCap (Char.ofNat n) ≠ Char.ofNat n := by decide +kernel
  have := key c.toNat (by omega) h1
  rwa [Char.ofNat_toNat] at this

theorem title_eq_iff (n : List Char) : title n = n ↔ ¬ StartsLower n := by
  cases n with
  | nil => simp [title, StartsLower]
  | cons c cs =>
    simp only [title, StartsLower, List.cons.injEq, and_true]
    cases h : isLow c with
    | true =>
      have := (toCap_facts c h).2.2
      simp only [this, false_iff, not_not]
      exact ⟨c, cs, ⟨rfl, rfl⟩, h⟩
    | false =>
      simp only [toCap, h, Bool.false_eq_true, if_false, true_iff]
      rintro ⟨d, ds, ⟨rfl, rfl⟩, hd⟩
      rw [h] at hd
      cases hd

theorem title_not_lower (n : List Char) : ¬ StartsLower (title n) := by
  cases n with
  | nil => simp [title, StartsLower]
  | cons c cs =>
    rintro ⟨d, ds, hd, hl⟩
    simp only [title, List.cons.injEq] at hd
    obtain ⟨rfl, rfl⟩ := hd
    cases h : isLow c with
    | true => rw [(toCap_facts c h).2.1] at hl; cases hl
    | false => simp only [toCap, h, Bool.false_eq_true, if_false] at hl

/-! ## C72: members -/

/-- The fields of a declaration, the one of the default case last. -/
def ADecl.schemaFields : ADecl → List AField
  | .struct _ _ _ fs _ => fs
  | .union _ _ _ fs _ => fs
  | .choice _ _ _ _ cases default _ => (cases.filterMap fun c => c.field) ++ (default.bind fun c => c.field).toList
  | _ => []

def ADecl.schemaParams : ADecl → List AParam
  | .struct _ _ ps _ _ => ps
  | .union _ _ ps _ _ => ps
  | .choice _ _ ps _ _ _ _ => ps
  | _ => []

def ADecl.schemaFunctions : ADecl → List AFunction
  | .struct _ _ _ _ gs => gs
  | .union _ _ _ _ gs => gs
  | .choice _ _ _ _ _ _ gs => gs
  | _ => []

/-- The names of parameters, fields and functions. -/
def ADecl.memberNames (d : ADecl) : List (List Char) :=
  d.schemaParams.map AParam.name ++ d.schemaFields.map AField.name ++ d.schemaFunctions.map AFunction.name

/-- **C72**: the fields of the Go type are the fields of the declaration, in the same order, with the first letter of the name in
upper case. -/
theorem C72_fields (d : ADecl) : d.goFields.map GoField.name = d.schemaFields.map fun f => title f.name := by
  cases d with
  | struct => simp [ADecl.goFields, ADecl.schemaFields, capField, Function.comp_def]
  | union => simp [ADecl.goFields, ADecl.schemaFields, capField, Function.comp_def]
  | choice n tps ps sel cs dc gs =>
    match dc with
    | none => simp [ADecl.goFields, ADecl.schemaFields, capField, Function.comp_def]
    | some ⟨_, none⟩ => simp [ADecl.goFields, ADecl.schemaFields, capField, Function.comp_def]
    | some ⟨_, some f⟩ => simp [ADecl.goFields, ADecl.schemaFields, capField, capDefaultField, Function.comp_def]
  | _ => rfl

/-- **C72**: a member can be seen from other Go packages, and by `encoding/json`, exactly if its name in the schema begins with a
letter. -/
theorem C72_exported (n : List Char) : Exported (title n) ↔ StartsWithLetter n := by
  cases n with
  | nil => simp [title, Exported, StartsWithLetter]
  | cons c cs =>
    simp only [title, Exported, StartsWithLetter, List.cons.injEq]
    constructor
    · rintro ⟨d, ds, ⟨rfl, rfl⟩, hd⟩
      refine ⟨c, _, ⟨rfl, rfl⟩, ?_⟩
      cases h : isLow c with
      | true => exact .inl rfl
      | false => simp only [toCap, h, Bool.false_eq_true, if_false] at hd; exact .inr hd
    · rintro ⟨d, ds, ⟨rfl, rfl⟩, hd⟩
      refine ⟨_, _, ⟨rfl, rfl⟩, ?_⟩
      rcases hd with hd | hd
      · exact (toCap_facts c hd).1
      · have : isLow c = false := by
          simp only [isCap, isLow, Bool.and_eq_true, decide_eq_true_eq] at hd ⊢
          have h1 : c.toNat ≤ 90 := hd.2
          have h2 : ¬ (97 ≤ c.toNat) := by omega
          simp only [show 'a'.toNat = 97 from rfl, decide_eq_false h2, Bool.false_and]
        simp only [toCap, this, Bool.false_eq_true, if_false, hd]

/-- C72: a name that begins with an underscore is a name in zserio, and hidden in Go. -/
theorem C72_violated_exported : ∃ n : Ident, ¬ Exported (title n.text) := by
  refine ⟨ident "_x" rfl, ?_⟩
  rw [C72_exported]
  rintro ⟨c, cs, h, hc⟩
  obtain ⟨rfl, _⟩ := List.cons.inj (show ['_', 'x'] = c :: cs from h)
  revert hc
  decide

/-- The key that `encoding/json` uses for a field: the one in the tag, the name of the Go field if that is empty. -/
def GoField.jsonKey (f : GoField) : List Char := if f.json = [] then f.name else f.json

/-- The field of the default case. -/
def ADecl.defaultFieldOf : ADecl → Option AField
  | .choice _ _ _ _ _ default _ => default.bind fun c => c.field
  | _ => none

/-- **C72**: in JSON, fields have the names of the schema.  Missing: the field of the default case of a choice, see
`C72_violated_json`. -/
theorem C72_json_partial (d : ADecl) (hd : d.defaultFieldOf = none) (hn : ∀ f ∈ d.schemaFields, f.name ≠ []) :
    d.goFields.map GoField.jsonKey = d.schemaFields.map AField.name := by
  have key : ∀ fs : List AField, (∀ f ∈ fs, f.name ≠ []) → (fs.map capField).map GoField.jsonKey = fs.map AField.name := by
    intro fs h
    rw [List.map_map]
    refine List.map_congr_left fun f hf => ?_
    simp [capField, GoField.jsonKey, h f hf]
  cases d with
  | struct => exact key _ hn
  | union => exact key _ hn
  | choice n tps ps sel cs dc gs =>
    match dc with
    | none =>
      simp only [ADecl.goFields, ADecl.schemaFields, Option.bind_none, Option.toList_none, List.append_nil] at hn ⊢
      exact key _ hn
    | some ⟨_, none⟩ =>
      simp only [ADecl.goFields, ADecl.schemaFields, Option.bind_some, Option.toList_none, List.map_nil, List.append_nil] at hn ⊢
      exact key _ hn
    | some ⟨_, some f⟩ => simp [ADecl.defaultFieldOf] at hd
  | _ => rfl

/-- `name` of type `uint8` -/
def byteField (name : String) : AField := ⟨name.toList, false, 0, .mk true [] "uint8".toList 0 [] [] none, none, none, none, none⟩

/-- C72: `choice C on 1 { case 2: uint8 a; default: uint8 b; };` has the keys `a` and `B`. -/
theorem C72_violated_json : ∃ d : ADecl, d.schemaFields.map AField.name = ["a".toList, "b".toList] ∧
    d.goFields.map GoField.jsonKey = ["a".toList, "B".toList] :=
  ⟨.choice "C".toList [] [] (.leaf .decimalLiteral "1".toList)
    [⟨[.leaf .decimalLiteral "2".toList], some (byteField "a")⟩] (some ⟨[], some (byteField "b")⟩) [], rfl, rfl⟩

example : ∃ d : ADecl, d.defaultFieldOf = none ∧ d.goFields.map GoField.jsonKey = ["lowFirst".toList, "HighFirst".toList] ∧
    d.goFields.map GoField.name = ["LowFirst".toList, "HighFirst".toList] :=
  ⟨.struct "S".toList [] [] [byteField "lowFirst", byteField "HighFirst"] [], rfl, rfl, rfl⟩

/-- What the generator itself declares in the Go type of a declaration. -/
def ADecl.reserved : ADecl → List (List Char)
  | .union .. => "UnionChoice".toList :: methodNames
  | _ => methodNames

def ADecl.Compound : ADecl → Prop
  | .struct .. | .union .. | .choice .. => True
  | _ => False

theorem methodNames_nodup : methodNames.Nodup := by decide +kernel

/-- **C72**: the Go type of a struct, union or choice declares no name twice exactly if its members have different names after the
first letters are made upper case, and none of them is a name the generator uses. -/
theorem C72_members (d : ADecl) (hc : d.Compound) : d.goMembers.Nodup ↔
    (d.memberNames.map title).Nodup ∧ ∀ n ∈ d.memberNames, title n ∉ d.reserved := by
  have hf := C72_fields d
  have split : ∀ a b c : List (List Char), (a ++ b ++ c ++ methodNames).Nodup ↔
      (a ++ b ++ c).Nodup ∧ ∀ n ∈ a ++ b ++ c, n ∉ methodNames := by
    intro a b c
    rw [List.nodup_append]
    simp only [methodNames_nodup, true_and]
    refine and_congr_right fun _ => ?_
    constructor
    · intro h n hn hm; exact h n hn n hm rfl
    · intro h x hx y hy he; exact h x hx (he ▸ hy)
  have names : d.memberNames.map title = d.schemaParams.map (fun p => title p.name) ++ d.goFields.map GoField.name ++
      d.schemaFunctions.map (fun g => title g.name) := by
    rw [hf]
    simp [ADecl.memberNames, Function.comp_def]
  have all : ∀ P : List Char → Prop, (∀ n ∈ d.memberNames, P (title n)) ↔ ∀ n ∈ d.memberNames.map title, P n := by
    intro P
    simp
  rw [all fun n => n ∉ d.reserved, names]
  cases d with
  | struct n tps ps fs gs =>
    simp only [ADecl.goMembers, ADecl.reserved, ADecl.schemaParams, ADecl.schemaFunctions]
    exact split _ _ _
  | choice n tps ps sel cs dc gs =>
    simp only [ADecl.goMembers, ADecl.reserved, ADecl.schemaParams, ADecl.schemaFunctions]
    exact split _ _ _
  | union n tps ps fs gs =>
    simp only [ADecl.goMembers, ADecl.reserved, ADecl.schemaParams, ADecl.schemaFunctions]
    have hu : "UnionChoice".toList ∉ methodNames := by decide +kernel
    rw [List.cons_append, List.cons_append, List.cons_append, List.nodup_cons, split]
    constructor
    · rintro ⟨h1, h2, h3⟩
      refine ⟨h2, fun x hx hm => ?_⟩
      rcases List.mem_cons.mp hm with rfl | hm
      · exact h1 (List.mem_append_left _ hx)
      · exact h3 x hx hm
    · rintro ⟨h2, h3⟩
      refine ⟨fun h => ?_, h2, fun x hx hm => h3 x hx (List.mem_cons_of_mem _ hm)⟩
      rcases List.mem_append.mp h with h | h
      · exact h3 _ h List.mem_cons_self
      · exact hu h
  | _ => exact absurd hc id

/-- **C72**: so members with different names that all begin with a lower-case letter are fine unless the generator uses the name. -/
theorem C72_members_lower_partial (d : ADecl) (hc : d.Compound) (hn : d.memberNames.Nodup) (hl : ∀ n ∈ d.memberNames, StartsLower n)
    (hr : ∀ n ∈ d.memberNames, title n ∉ d.reserved) : d.goMembers.Nodup := by
  refine (C72_members d hc).mpr ⟨?_, hr⟩
  rw [List.nodup_map_iff_inj_on hn]
  intro x hx y hy he
  by_contra hne
  refine C53_titles_partial x y hne (.inl ⟨?_, ?_⟩) he
  · obtain ⟨c, cs, rfl, h⟩ := hl x hx
    simpa using h
  · obtain ⟨c, cs, rfl, h⟩ := hl y hy
    simpa using h

example : (ADecl.struct "S".toList [] [⟨"size".toList, .mk true [] "uint8".toList 0 [] [] none⟩] [byteField "a", byteField "b"] []).goMembers.Nodup := by
  refine C72_members_lower_partial _ trivial (by decide +kernel) ?_ (by decide +kernel)
  intro n hn
  have : n = "size".toList ∨ n = "a".toList ∨ n = "b".toList := by simpa [ADecl.memberNames, ADecl.schemaParams, ADecl.schemaFields,
    ADecl.schemaFunctions, byteField] using hn
  rcases this with rfl | rfl | rfl <;> exact ⟨_, _, rfl, rfl⟩

/-- C72: legal declarations whose Go type declares a name twice: a field called like a method, a field called like the tag of a
union, and two fields that differ in the first letter. -/
theorem C72_violated_members :
    ¬ (ADecl.struct "S".toList [] [] [byteField "zserioBitSize"] []).goMembers.Nodup ∧
    ¬ (ADecl.union "U".toList [] [] [byteField "unionChoice"] []).goMembers.Nodup ∧
    ¬ (ADecl.struct "S".toList [] [] [byteField "a", byteField "A"] []).goMembers.Nodup := by
  decide +kernel

/-! ## C73: references to types -/

/-- **C73**: a declaration gets the name that references to it use exactly if it is a constant, enum, union or bitmask or its name
does not begin with a lower-case letter. -/
theorem C73_declared (d : ADecl) : d.goName = title d.name ↔
    d.kind ∈ [DeclKind.const, .enum, .union, .bitmask] ∨ ¬ StartsLower d.name := by
  have h := title_eq_iff d.name
  cases d <;> simp_all [ADecl.goName, ADecl.name, ADecl.kind, eq_comm]

/-- **C73**: what a reference within a package is compiled to is the name of the declaration.  Missing: structs, choices and subtypes
with names that begin with a lower-case letter. -/
theorem C73_own_partial (p : APackage) (hp : p.name ≠ []) (d : ADecl) (hd : d.kind ∈ [DeclKind.const, .enum, .union, .bitmask] ∨
    ¬ StartsLower d.name) : goUserType p.name p.name d.name = some d.goName := by
  rw [(C73_declared d).mpr hd]
  simp [goUserType, hp]

/-- **C73**: and from another package it is that name behind the name the import gets. -/
theorem C73_other_partial (p q : APackage) (hq : q.name ≠ []) (hne : q.name ≠ p.name) (d : ADecl)
    (hd : d.kind ∈ [DeclKind.const, .enum, .union, .bitmask] ∨ ¬ StartsLower d.name) :
    goUserType p.name q.name d.name = some (goPackageAlias q.name ++ '.' :: d.goName) := by
  rw [(C73_declared d).mpr hd]
  simp [goUserType, hq, hne]

/-- `struct name { uint8 x; };` -/
def byteStruct (name : String) : ADecl := .struct name.toList [] [] [byteField "x"] []

/-- C73: `struct foo` is declared as `foo`, and referred to as `Foo`. -/
theorem C73_violated_declared : (byteStruct "foo").goName = "foo".toList ∧
    goUserType "a".toList "a".toList (byteStruct "foo").name = some "Foo".toList := ⟨rfl, rfl⟩

example : goUserType "a".toList "b.c".toList (byteStruct "Foo").name = some "b_c.Foo".toList := rfl

/-- **C73**: the type of a field is looked up by the name it has in the schema.  Missing: names that begin with a lower-case
letter. -/
theorem C73_lookup_partial (f : AField) (h : f.type.isBuiltin = true ∨ ¬ StartsLower f.type.name) : (capField f).type = f.type := by
  obtain ⟨_, _, _, t, _, _, _, _⟩ := f
  obtain ⟨b, pkg, name, bits, targs, args, length⟩ := t
  cases b with
  | true => rfl
  | false =>
    simp only [ATypeRef.isBuiltin, Bool.false_eq_true, false_or, ATypeRef.name] at h
    simp only [capField, capRef, (title_eq_iff name).mpr h]

/-- Nothing is found under a name that nothing is declared as. -/
theorem typeScope_absent (p : APackage) (name : List Char) (h : ∀ d ∈ p.decls, d.name ≠ name) : p.typeScope name = none := by
  have : ∀ k, p.get k name = none := by
    intro k
    unfold APackage.get
    rw [List.find?_eq_none]
    intro d hd
    simp [h d hd]
  simp [APackage.typeScope, scopeOrder, this]

/-- C73: the type of a field with such a name is not found, whatever kind it is. -/
theorem C73_violated_lookup (p : APackage) (f : AField) (hb : f.type.isBuiltin = false) (hl : StartsLower f.type.name)
    (hn : ∀ d ∈ p.decls, ¬ d.name = title f.type.name) : p.typeScope (capField f).type.name = none := by
  obtain ⟨_, _, _, t, _, _, _, _⟩ := f
  obtain ⟨b, pkg, name, bits, targs, args, length⟩ := t
  cases b with
  | true => simp [ATypeRef.isBuiltin] at hb
  | false => exact typeScope_absent p _ hn

/-- `struct foo { uint8 x; }; struct S { foo y; };` -/
example : let p : APackage := ⟨"a".toList, [], [byteStruct "foo", .struct "S".toList [] [] [⟨"y".toList, false, 0,
    .mk false "a".toList "foo".toList 0 [] [] none, none, none, none, none⟩] []]⟩
    p.typeScope "foo".toList = some (byteStruct "foo") ∧ p.typeScope (capRef (.mk false "a".toList "foo".toList 0 [] [] none)).name = none :=
  ⟨rfl, rfl⟩

/-- C73: or another declaration is found: a field of type `foo` is taken for one of type `Foo`. -/
theorem C73_violated_other : ∃ (p : APackage) (t : ATypeRef), p.typeScope t.name = some (byteStruct "foo") ∧
    p.typeScope (capRef t).name = some (.subtype "Foo".toList (.mk true [] "uint8".toList 0 [] [] none)) :=
  ⟨⟨"a".toList, [], [byteStruct "foo", .subtype "Foo".toList (.mk true [] "uint8".toList 0 [] [] none)]⟩,
    .mk false "a".toList "foo".toList 0 [] [] none, rfl, rfl⟩

/-! ## C74: names of the package -/

theorem nodup_prefix (a : List Char) (l : List (List Char)) : (l.map fun x => a ++ x).Nodup ↔ l.Nodup :=
  List.nodup_map_iff fun _ _ h => List.append_cancel_left h

/-- What has to hold for the names declared for one declaration to be different. -/
def OwnNamesFine : ADecl → Prop
  | .union _ tps _ fs _ => tps = [] → (fs.map fun f => title f.name).Nodup ∧ ∀ f ∈ fs, title f.name ≠ "Undefined".toList
  | .bitmask _ _ vs => (vs.map fun v => title v.name).Nodup ∧ ∀ v ∈ vs, v.name ≠ []
  | .enum n _ is => (is.map fun i => enumItemGoName (title n) (title i.name)).Nodup ∧
      ∀ i ∈ is, enumItemGoName (title n) (title i.name) ∉
        [title n, title n ++ "Values".toList, title n ++ "Strings".toList, title n ++ "String".toList]
  | _ => True

/-- The names do not begin with an underscore. -/
def NoUnderscore (n : List Char) : Prop := ∀ c cs, n = c :: cs → c ≠ '_'

theorem title_noUnderscore {n : List Char} (h : NoUnderscore n) : NoUnderscore (title n) := by
  cases n with
  | nil => intro c cs hc; cases hc
  | cons c cs =>
    intro d ds hd
    simp only [title, List.cons.injEq] at hd
    obtain ⟨rfl, _⟩ := hd
    intro hc
    have h1 := h c cs rfl
    cases hl : isLow c with
    | true =>
      have := (toCap_facts c hl).1
      rw [hc] at this
      revert this
      decide
    | false =>
      simp only [toCap, hl, Bool.false_eq_true, if_false] at hc
      exact h1 hc

theorem title_ne_nil {n : List Char} (h : n ≠ []) : title n ≠ [] := by
  cases n with
  | nil => exact absurd rfl h
  | cons c cs => simp [title]

theorem title_nil_iff {n : List Char} : title n = [] ↔ n = [] := by
  cases n <;> simp [title]

/-- **C74**: the code of one declaration declares no name of the Go package twice, exactly under the conditions of `OwnNamesFine`. -/
theorem C74_own (d : ADecl) (hu : NoUnderscore d.name) (hne : d.name ≠ []) : d.goTopNames.Nodup ↔ OwnNamesFine d := by
  cases d with
  | union n tps ps fs gs =>
    simp only [ADecl.goTopNames, OwnNamesFine]
    by_cases ht : tps = []
    · simp only [ht, if_true, true_implies]
      have : ([title n ++ "UnionChoiceType".toList, title n ++ "ChoiceUndefined".toList] ++
          fs.map (fun f : AField => title n ++ "Choice".toList ++ title f.name) ++ [title n]) =
          (["UnionChoiceType".toList, "ChoiceUndefined".toList] ++ fs.map (fun f : AField => "Choice".toList ++ title f.name) ++ [[]]).map
            fun x => title n ++ x := by
        simp [Function.comp_def]
      rw [this, nodup_prefix]
      have h1 : ∀ x : List Char, ¬ ("Choice".toList ++ x = "UnionChoiceType".toList) := by
        intro x h
        exact absurd (List.cons.inj h).1 (by decide)
      have h2 : ∀ x : List Char, "Choice".toList ++ x = "ChoiceUndefined".toList ↔ x = "Undefined".toList := by
        intro x
        rw [show "ChoiceUndefined".toList = "Choice".toList ++ "Undefined".toList from rfl, List.append_cancel_left_eq]
      have h3 : ∀ x : List Char, ¬ ("Choice".toList ++ x = []) := by
        intro x h
        cases h
      have h4 : (fs.map fun f : AField => "Choice".toList ++ title f.name).Nodup ↔ (fs.map fun f : AField => title f.name).Nodup := by
        rw [← nodup_prefix "Choice".toList (fs.map fun f : AField => title f.name), List.map_map]
        rfl
      rw [List.nodup_append, List.nodup_append, h4]
      constructor
      · rintro ⟨⟨_, a, b⟩, _, _⟩
        refine ⟨a, fun f hf h => ?_⟩
        exact b "ChoiceUndefined".toList (by simp) _ (List.mem_map_of_mem hf) ((h2 _).mpr h).symm
      · rintro ⟨a, b⟩
        refine ⟨⟨by decide, a, ?_⟩, by simp, ?_⟩
        · intro x hx y hy he
          obtain ⟨f, hf, rfl⟩ := List.mem_map.mp hy
          simp only [List.mem_cons, List.not_mem_nil, or_false] at hx
          rcases hx with rfl | rfl
          · exact h1 _ he.symm
          · exact b f hf ((h2 _).mp he.symm)
        · intro x hx y hy he
          simp only [List.mem_singleton] at hy
          subst hy he
          rcases List.mem_append.mp hx with hx | hx
          · revert hx; decide
          · obtain ⟨f, _, h⟩ := List.mem_map.mp hx
            exact h3 _ h
    · simp [ht]
  | bitmask n t vs =>
    simp only [ADecl.goTopNames, OwnNamesFine]
    have : (title n :: vs.map fun v => title n ++ title v.name) = ([] :: vs.map fun v => title v.name).map fun x => title n ++ x := by
      simp [Function.comp_def]
    rw [this, nodup_prefix, List.nodup_cons, and_comm]
    refine and_congr_right fun _ => ?_
    simp only [List.mem_map, not_exists, not_and, title_nil_iff, ne_eq]
  | enum n t is =>
    simp only [ADecl.goTopNames, OwnNamesFine]
    have hT := title_noUnderscore (n := n) hu
    have hTn := title_ne_nil (n := n) hne
    generalize title n = T at hT hTn
    have hun : ∀ x y : List Char, ('_' :: T ++ x) ≠ T ++ y := by
      intro x y h
      obtain ⟨c, cs, rfl⟩ := List.exists_cons_of_ne_nil hTn
      exact hT c cs rfl (List.cons.inj h).1.symm
    have items : ∀ i : AItem, ∃ y, enumItemGoName T (title i.name) = T ++ y := fun i => ⟨_, rfl⟩
    have tail : ['_' :: T ++ "Names".toList, '_' :: T ++ "Values".toList, '_' :: T ++ "Name".toList,
        '_' :: T ++ "NameToValue".toList, T ++ "Values".toList, T ++ "Strings".toList, T ++ "String".toList].Nodup := by
      have e : ['_' :: T ++ "Names".toList, '_' :: T ++ "Values".toList, '_' :: T ++ "Name".toList,
          '_' :: T ++ "NameToValue".toList, T ++ "Values".toList, T ++ "Strings".toList, T ++ "String".toList] =
          (["Names".toList, "Values".toList, "Name".toList, "NameToValue".toList].map fun x => ('_' :: T) ++ x) ++
            (["Values".toList, "Strings".toList, "String".toList].map fun x => T ++ x) := rfl
      rw [e, List.nodup_append, nodup_prefix, nodup_prefix]
      refine ⟨by decide, by decide, ?_⟩
      intro x hx y hy he
      obtain ⟨a, _, rfl⟩ := List.mem_map.mp hx
      obtain ⟨b, _, rfl⟩ := List.mem_map.mp hy
      exact hun a b he
    rw [List.cons_append, List.nodup_cons, List.nodup_append]
    constructor
    · rintro ⟨h1, h2, _, h3⟩
      refine ⟨h2, fun i hi hm => ?_⟩
      have hm' : enumItemGoName T (title i.name) ∈ is.map fun i => enumItemGoName T (title i.name) := List.mem_map_of_mem hi
      simp only [List.mem_cons, List.not_mem_nil, or_false] at hm
      rcases hm with h | h | h | h
      · rw [h] at hm'; exact h1 (List.mem_append_left _ hm')
      · exact h3 _ hm' _ (by simp) h
      · exact h3 _ hm' _ (by simp) h
      · exact h3 _ hm' _ (by simp) h
    · rintro ⟨h1, h2⟩
      refine ⟨?_, h1, tail, ?_⟩
      · intro hm
        rcases List.mem_append.mp hm with hm | hm
        · obtain ⟨i, hi, h⟩ := List.mem_map.mp hm
          exact h2 i hi (by simp [h])
        · simp only [List.mem_cons, List.not_mem_nil, or_false] at hm
          have hz : ∀ x : List Char, T = T ++ x → x = [] := fun x h => by simpa using h
          have hz' : ∀ x : List Char, T ≠ '_' :: T ++ x := fun x h => hun x [] (by simpa using h.symm)
          rcases hm with h | h | h | h | h | h | h
          · exact hz' _ h
          · exact hz' _ h
          · exact hz' _ h
          · exact hz' _ h
          · exact absurd (hz _ h) (by decide)
          · exact absurd (hz _ h) (by decide)
          · exact absurd (hz _ h) (by decide)
      · intro x hx y hy he
        obtain ⟨i, hi, rfl⟩ := List.mem_map.mp hx
        obtain ⟨z, hz⟩ := items i
        simp only [List.mem_cons, List.not_mem_nil, or_false] at hy
        have h2 := h2 i hi
        simp only [List.mem_cons, List.not_mem_nil, or_false, not_or] at h2
        rw [hz] at he h2
        rcases hy with rfl | rfl | rfl | rfl | rfl | rfl | rfl
        · exact hun _ _ he.symm
        · exact hun _ _ he.symm
        · exact hun _ _ he.symm
        · exact hun _ _ he.symm
        · exact h2.2.1 he
        · exact h2.2.2.1 he
        · exact h2.2.2.2 he
  | struct n tps ps fs gs => simp only [ADecl.goTopNames, OwnNamesFine, iff_true]; split_ifs <;> simp
  | choice n tps ps sel cs dc gs => simp only [ADecl.goTopNames, OwnNamesFine, iff_true]; split_ifs <;> simp
  | const => simp [ADecl.goTopNames, OwnNamesFine]
  | subtype => simp [ADecl.goTopNames, OwnNamesFine]
  | instantiate => simp [ADecl.goTopNames, OwnNamesFine]

/-- Every name declared for a declaration is its Go name with something behind, possibly after an underscore. -/
theorem topNames_prefix (d : ADecl) (x : List Char) (hx : x ∈ d.goTopNames) :
    (∃ y, x = d.goName ++ y) ∨ ∃ y, x = '_' :: d.goName ++ y := by
  cases d with
  | const n t v => exact .inl ⟨[], by simpa [ADecl.goTopNames, ADecl.goName] using hx⟩
  | subtype n t => exact .inl ⟨[], by simpa [ADecl.goTopNames, ADecl.goName] using hx⟩
  | instantiate n t => simp [ADecl.goTopNames] at hx
  | struct n tps ps fs gs =>
    simp only [ADecl.goTopNames] at hx
    split_ifs at hx
    · exact .inl ⟨[], by simpa [ADecl.goName] using hx⟩
    · cases hx
  | choice n tps ps sel cs dc gs =>
    simp only [ADecl.goTopNames] at hx
    split_ifs at hx
    · exact .inl ⟨[], by simpa [ADecl.goName] using hx⟩
    · cases hx
  | union n tps ps fs gs =>
    simp only [ADecl.goTopNames] at hx
    split_ifs at hx
    · simp only [List.mem_append, List.mem_cons, List.not_mem_nil, or_false, List.mem_map] at hx
      rcases hx with ((rfl | rfl) | ⟨f, _, rfl⟩) | rfl
      · exact .inl ⟨_, rfl⟩
      · exact .inl ⟨_, rfl⟩
      · exact .inl ⟨_, by simp only [ADecl.goName, List.append_assoc]; rfl⟩
      · exact .inl ⟨[], by simp [ADecl.goName]⟩
    · cases hx
  | bitmask n t vs =>
    simp only [ADecl.goTopNames, List.mem_cons, List.mem_map] at hx
    rcases hx with rfl | ⟨v, _, rfl⟩
    · exact .inl ⟨[], by simp [ADecl.goName]⟩
    · exact .inl ⟨_, rfl⟩
  | enum n t is =>
    simp only [ADecl.goTopNames, List.mem_append, List.mem_cons, List.mem_map, List.not_mem_nil, or_false] at hx
    rcases hx with (rfl | ⟨i, _, rfl⟩) | rfl | rfl | rfl | rfl | rfl | rfl | rfl
    · exact .inl ⟨[], by simp [ADecl.goName]⟩
    · exact .inl ⟨_, rfl⟩
    · exact .inr ⟨_, rfl⟩
    · exact .inr ⟨_, rfl⟩
    · exact .inr ⟨_, rfl⟩
    · exact .inr ⟨_, rfl⟩
    · exact .inl ⟨_, rfl⟩
    · exact .inl ⟨_, rfl⟩
    · exact .inl ⟨_, rfl⟩

theorem goName_noUnderscore (d : ADecl) (h : NoUnderscore d.name) (hne : d.name ≠ []) : NoUnderscore d.goName ∧ d.goName ≠ [] := by
  cases d <;> first
    | exact ⟨title_noUnderscore h, title_ne_nil hne⟩
    | exact ⟨h, hne⟩

/-- **C74**: no name of the Go package is declared twice if that holds for each declaration, no declaration begins with an
underscore, and the Go name of none begins with the Go name of another.  Missing: packages where one does, such as an enum `Color` and
a struct `ColorValues`, see `C74_violated_prefix`. -/
theorem C74_package_partial (ds : List ADecl) (ho : ∀ d ∈ ds, OwnNamesFine d) (hu : ∀ d ∈ ds, NoUnderscore d.name)
    (hne : ∀ d ∈ ds, d.name ≠ []) (hp : ds.Pairwise fun d e => ¬ d.goName <+: e.goName ∧ ¬ e.goName <+: d.goName) :
    (ds.flatMap ADecl.goTopNames).Nodup := by
  rw [List.nodup_flatMap]
  refine ⟨fun d hd => (C74_own d (hu d hd) (hne d hd)).mpr (ho d hd), ?_⟩
  refine hp.imp_of_mem ?_
  intro d e hd he h x hx hy
  obtain ⟨h1, h1'⟩ := goName_noUnderscore d (hu d hd) (hne d hd)
  obtain ⟨h2, h2'⟩ := goName_noUnderscore e (hu e he) (hne e he)
  have pre : ∀ y z : List Char, d.goName ++ y = e.goName ++ z → False := by
    intro y z hyz
    rcases List.prefix_or_prefix_of_prefix (l₃ := d.goName ++ y) (List.prefix_append _ _) (by rw [hyz]; exact List.prefix_append _ _) with hh | hh
    · exact h.1 hh
    · exact h.2 hh
  rcases topNames_prefix d x hx with ⟨y, rfl⟩ | ⟨y, rfl⟩ <;> rcases topNames_prefix e _ hy with ⟨z, hz⟩ | ⟨z, hz⟩
  · exact pre y z hz
  · obtain ⟨c, cs, hc⟩ := List.exists_cons_of_ne_nil h1'
    rw [hc] at hz
    exact h1 c cs hc (List.cons.inj hz).1
  · obtain ⟨c, cs, hc⟩ := List.exists_cons_of_ne_nil h2'
    rw [hc] at hz
    exact h2 c cs hc (List.cons.inj hz).1.symm
  · exact pre y z (List.cons.inj hz).2

/-- `enum uint8 name { items };` -/
def byteEnum (name : String) (items : List String) : ADecl :=
  .enum name.toList (.mk true [] "uint8".toList 0 [] [] none) (items.map fun i => ⟨i.toList, none⟩)

example : ([byteEnum "Color" ["RED", "DARK_RED"], byteStruct "Shape", .union "Value".toList [] [] [byteField "a", byteField "b"] []].flatMap
    ADecl.goTopNames).Nodup := by decide +kernel

/-- C74: an item called `STRING` of an enum has the name of the function that reads the enum from a string, one called `VALUES` or
`STRINGS` that of the functions that list it. -/
theorem C74_violated_enum (name : String) (hn : name.toList ≠ []) (hu : NoUnderscore name.toList) (item : String)
    (h : item ∈ ["STRING", "VALUES", "STRINGS", "string", "String"]) : ¬ (byteEnum name ["OTHER", item]).goTopNames.Nodup := by
  rw [C74_own (byteEnum name ["OTHER", item]) hu hn]
  rintro ⟨_, h2⟩
  have h3 := h2 ⟨item.toList, none⟩ (by simp)
  apply h3
  simp only [List.mem_cons, List.not_mem_nil, or_false] at h
  rcases h with rfl | rfl | rfl | rfl | rfl
  · rw [show enumItemGoName (title name.toList) (title "STRING".toList) = title name.toList ++ "String".toList from rfl]; simp
  · rw [show enumItemGoName (title name.toList) (title "VALUES".toList) = title name.toList ++ "Values".toList from rfl]; simp
  · rw [show enumItemGoName (title name.toList) (title "STRINGS".toList) = title name.toList ++ "Strings".toList from rfl]; simp
  · rw [show enumItemGoName (title name.toList) (title "string".toList) = title name.toList ++ "String".toList from rfl]; simp
  · rw [show enumItemGoName (title name.toList) (title "String".toList) = title name.toList ++ "String".toList from rfl]; simp

example : ¬ (byteEnum "DataType" ["OTHER", "STRING"]).goTopNames.Nodup :=
  C74_violated_enum "DataType" (by decide) (by intro c cs h; obtain ⟨rfl, _⟩ := List.cons.inj (show 'D' :: "ataType".toList = c :: cs from h); decide) "STRING" (by simp)

/-- C74: a field called `undefined` of a union has the name of the constant for a union without value. -/
theorem C74_violated_union (name : String) (hn : name.toList ≠ []) (hu : NoUnderscore name.toList) :
    ¬ (ADecl.union name.toList [] [] [byteField "undefined"] []).goTopNames.Nodup := by
  rw [C74_own (.union name.toList [] [] [byteField "undefined"] []) hu hn]
  intro h
  exact (h rfl).2 (byteField "undefined") (by simp) rfl

/-- C74: an enum `Color` and a struct `ColorValues` cannot be in one package. -/
theorem C74_violated_prefix : ¬ ([byteEnum "Color" ["RED"], byteStruct "ColorValues"].flatMap ADecl.goTopNames).Nodup ∧
    (byteEnum "Color" ["RED"]).goTopNames.Nodup ∧ (byteStruct "ColorValues").goTopNames.Nodup := by
  decide +kernel

/-! ## C75: packages -/

theorem alias_inj (a b : List Char) (ha : '_' ∉ a) (hb : '_' ∉ b) (h : goPackageAlias a = goPackageAlias b) : a = b := by
  unfold goPackageAlias at h
  induction a generalizing b with
  | nil => cases b with
    | nil => rfl
    | cons => simp at h
  | cons c cs ih =>
    cases b with
    | nil => simp at h
    | cons d ds =>
      simp only [List.map_cons, List.cons.injEq] at h
      simp only [List.mem_cons, not_or] at ha hb
      rw [ih ds ha.2 hb.2 h.2]
      have := h.1
      split_ifs at this with h1 h2 h2
      · rw [h1, h2]
      · exact absurd this hb.1
      · exact absurd this.symm ha.1
      · rw [this]

/-- **C75**: different imported packages have different names in a generated file, also different from those of the packages the
generated code needs.  Missing: package names with underscores or of one of the six names, see `C75_violated_alias` and
`C75_violated_fixed`. -/
theorem C75_imports_partial (imports : List (List Char)) (hn : imports.Nodup) (hu : ∀ i ∈ imports, '_' ∉ i)
    (hf : ∀ i ∈ imports, i ∉ fixedImports) : (importNames imports).Nodup := by
  unfold importNames
  rw [List.nodup_append]
  refine ⟨by decide +kernel, ?_, ?_⟩
  · rw [List.nodup_map_iff_inj_on hn]
    intro x hx y hy he
    exact alias_inj x y (hu x hx) (hu y hy) he
  · intro x hx y hy he
    obtain ⟨i, hi, rfl⟩ := List.mem_map.mp hy
    subst he
    have hno : ∀ f ∈ fixedImports, '_' ∉ f := by decide +kernel
    have : goPackageAlias i = i := by
      unfold goPackageAlias
      have hx' := hno _ hx
      have : ∀ c ∈ i, c ≠ '.' := by
        rintro c hc rfl
        exact hx' (List.mem_map.mpr ⟨'.', hc, rfl⟩)
      calc i.map _ = i.map id := List.map_congr_left fun c hc => by simp [this c hc]
        _ = i := by simp
    rw [this] at hx
    exact hf i hi hx

example : (importNames ["a.b".toList, "a.c".toList, "ab".toList]).Nodup := by decide +kernel

/-- C75: `a.b` and `a_b` get the same name. -/
theorem C75_violated_alias : ["a.b".toList, "a_b".toList].Nodup ∧ ¬ (importNames ["a.b".toList, "a_b".toList]).Nodup := by
  decide +kernel

/-- C75: a schema package `fmt` gets the name of the Go package `fmt`. -/
theorem C75_violated_fixed : ¬ (importNames ["fmt".toList]).Nodup := by decide +kernel

theorem toLow_ident (c : Char) : (isIdStart c = true → isIdStart (toLow c) = true) ∧ (isIdChar c = true → isIdChar (toLow c) = true) := by
  cases h : isCap c with
  | false => simp [toLow, h]
  | true =>
    simp only [isCap, Bool.and_eq_true, decide_eq_true_eq] at h
    have h1 : 65 ≤ c.toNat := h.1
    have h2 : c.toNat ≤ 90 := h.2
    have key : ∀ n, n < 91 → 65 ≤ n → isIdStart (toLow (Char.ofNat n)) = true := by decide +kernel
    have := key c.toNat (by omega) h1
    rw [Char.ofNat_toNat] at this
    exact ⟨fun _ => this, fun _ => by simp [isIdChar, this]⟩

theorem goPackageName_qualified (first : Ident) (rest : List Ident) :
    goPackageName (qualifiedText first rest) = (lastName first rest).text.map toLow := by
  have single : ∀ (pre : List Char) (n : Ident), (pre = [] ∨ ∃ q, pre = q ++ ['.']) →
      ((pre ++ n.text).reverse.takeWhile fun c => c ≠ '.').reverse = n.text := by
    intro pre n hpre
    have h1 : ∀ c ∈ n.text.reverse, decide (c ≠ '.') = true := fun c hc => by simp [ident_no_dot n c (by simpa using hc)]
    rw [List.reverse_append, List.takeWhile_append_of_pos h1]
    rcases hpre with rfl | ⟨q, rfl⟩
    · simp
    · simp
  have gen : ∀ (rest : List Ident) (first : Ident) (pre : List Char), (pre = [] ∨ ∃ q, pre = q ++ ['.']) →
      ((pre ++ qualifiedText first rest).reverse.takeWhile fun c => c ≠ '.').reverse = (lastName first rest).text := by
    intro rest
    induction rest with
    | nil => intro first pre h; exact single pre first h
    | cons next rest ih =>
      intro first pre _
      have := ih next (pre ++ first.text ++ ['.']) (.inr ⟨_, rfl⟩)
      simpa [qualifiedText, lastName] using this
  have := gen rest first [] (.inl rfl)
  simp only [List.nil_append] at this
  unfold goPackageName
  rw [this]

/-- The reserved words of Go, and the blank identifier, which Go does not accept as the name of a package. -/
def goKeywords : List (List Char) :=
  ["_", "break", "case", "chan", "const", "continue", "default", "defer", "else", "fallthrough", "for", "func", "go", "goto", "if", "import",
    "interface", "map", "package", "range", "return", "select", "struct", "switch", "type", "var"].map String.toList

/-- **C75**: the name of the Go package is the last part of the name of the package in lower case, and a name that Go accepts.
Missing: reserved words of Go and the blank identifier. -/
theorem C75_name_partial (first : Ident) (rest : List Ident) (h : (lastName first rest).text.map toLow ∉ goKeywords) :
    goPackageName (qualifiedText first rest) = (lastName first rest).text.map toLow ∧
      isIdText (goPackageName (qualifiedText first rest)) = true ∧ goPackageName (qualifiedText first rest) ∉ goKeywords := by
  rw [goPackageName_qualified]
  refine ⟨rfl, ?_, h⟩
  have hok := (lastName first rest).ok
  cases ht : (lastName first rest).text with
  | nil => rw [ht] at hok; cases hok
  | cons c cs =>
    rw [ht] at hok
    simp only [isIdText, Bool.and_eq_true, List.all_eq_true, List.map_cons, List.mem_map, forall_exists_index, and_imp,
      forall_apply_eq_imp_iff₂] at hok ⊢
    exact ⟨(toLow_ident c).1 hok.1, fun d hd => (toLow_ident d).2 (hok.2 d hd)⟩

example : goPackageName (qualifiedText (ident "com" rfl) [ident "Example" rfl]) = "example".toList :=
  (C75_name_partial (ident "com" rfl) [ident "Example" rfl] (by decide +kernel)).1

/-- C75: a package `a.map` becomes a file that begins with `package map`. -/
theorem C75_violated_keyword : goPackageName (qualifiedText (ident "a" rfl) [ident "map" rfl]) ∈ goKeywords := by decide +kernel

end Verif
