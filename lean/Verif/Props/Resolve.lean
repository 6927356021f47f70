import Verif.Resolve
import Verif.Props.Imports
import Verif.Props.FrontRead

/-!
# C71: the type references of a schema are bound to the declarations they name
-/

namespace Verif

/-! ## Specification -/

/-- The package declares something called `name`. -/
def APackage.DeclaresName (p : APackage) (name : List Char) : Prop := ∃ d ∈ p.decls, d.name = name

/-- Some package of the schema is called `pkg` and declares `name`. -/
def Declared (ps : List APackage) (pkg name : List Char) : Prop := ∃ q ∈ ps, q.name = pkg ∧ q.DeclaresName name

/-- An import that makes `name` visible: it names the package, and everything in it or just that name. -/
def Visible (ps : List APackage) (name : List Char) (i : List Char × List Char) : Prop :=
  (i.2 = ['*'] ∨ i.2 = name) ∧ Declared ps i.1 name

/-- Written in package `p` as `pkg.name`, or `name` if `pkg` is empty, the name stands for a declaration of package `pkg'`:
the one written, otherwise the own package, otherwise the first import that has it. -/
def NameMeans (ps : List APackage) (p : APackage) (pkg name pkg' : List Char) : Prop :=
  (pkg ≠ [] ∧ pkg' = pkg ∧ Declared ps pkg name) ∨
  (pkg = [] ∧ p.DeclaresName name ∧ pkg' = p.name) ∨
  (pkg = [] ∧ ¬ p.DeclaresName name ∧ ∃ pre i post, p.imports = pre ++ i :: post ∧ (∀ j ∈ pre, ¬ Visible ps name j) ∧
    Visible ps name i ∧ pkg' = i.1)

mutual
/-- `t'` is `t` with the package filled in, also in the template arguments that are not template parameters themselves. -/
def RefResolved (ps : List APackage) (p : APackage) (tps : List (List Char)) : ATypeRef → ATypeRef → Prop
  | .mk b pkg name bits targs args length, t' =>
    ∃ pkg' targs', t' = .mk b pkg' name bits targs' args length ∧
      if b = true then pkg' = pkg ∧ targs' = targs
      else NameMeans ps p pkg name pkg' ∧ RefsResolved ps p tps targs targs'
def RefsResolved (ps : List APackage) (p : APackage) (tps : List (List Char)) : List ATypeRef → List ATypeRef → Prop
  | [], ts' => ts' = []
  | .mk b pkg name bits targs args length :: ts, ts' =>
    ∃ u us, ts' = u :: us ∧
      (if name ∈ tps then u = .mk b pkg name bits targs args length
        else RefResolved ps p tps (.mk b pkg name bits targs args length) u) ∧ RefsResolved ps p tps ts us
end

/-- The same where the reference may be a template parameter. -/
def UseResolved (ps : List APackage) (p : APackage) (tps : List (List Char)) (t t' : ATypeRef) : Prop :=
  if t.pkg = [] ∧ t.name ∈ tps then t' = t else RefResolved ps p tps t t'

/-- Where a type reference stands. -/
inductive Slot where
  | const | subtype | instantiate | bitmask | enum
  | param | field | caseField | structFunction
  | defaultField | choiceFunction | unionFunction
deriving DecidableEq

/-- The places whose references are resolved. -/
def Slot.handled : Slot → Bool
  | .enum | .defaultField | .choiceFunction | .unionFunction => false
  | _ => true

def ADecl.templateParams : ADecl → List (List Char)
  | .struct _ tps _ _ _ => tps
  | .union _ tps _ _ _ => tps
  | .choice _ tps _ _ _ _ _ => tps
  | _ => []

/-- The type references of a declaration. -/
def ADecl.refs : ADecl → List (Slot × ATypeRef)
  | .const _ t _ => [(.const, t)]
  | .subtype _ t => [(.subtype, t)]
  | .instantiate _ t => [(.instantiate, t)]
  | .bitmask _ t _ => [(.bitmask, t)]
  | .enum _ t _ => [(.enum, t)]
  | .struct _ _ ps fs gs => ps.map (fun a : AParam => (Slot.param, a.type)) ++ fs.map (fun f : AField => (Slot.field, f.type)) ++
      gs.map (fun g : AFunction => (Slot.structFunction, g.returnType))
  | .union _ _ ps fs gs => ps.map (fun a : AParam => (Slot.param, a.type)) ++ fs.map (fun f : AField => (Slot.field, f.type)) ++
      gs.map (fun g : AFunction => (Slot.unionFunction, g.returnType))
  | .choice _ _ ps _ cs d gs => ps.map (fun a : AParam => (Slot.param, a.type)) ++
      (cs.filterMap fun c : AChoiceCase => c.field).map (fun f : AField => (Slot.caseField, f.type)) ++
      ((d.bind fun c : AChoiceCase => c.field).toList).map (fun f : AField => (Slot.defaultField, f.type)) ++
      gs.map (fun g : AFunction => (Slot.choiceFunction, g.returnType))

/-- The declaration with its type references taken away: what resolution has to leave alone. -/
inductive Shape where
  | const (name : List Char) (value : AExpr)
  | subtype (name : List Char)
  | instantiate (name : List Char)
  | bitmask (name : List Char) (values : List AItem)
  | enum (name : List Char) (items : List AItem)
  | struct (name : List Char) (tps : List (List Char)) (params : List (List Char))
      (fields : List (List Char × Bool × Nat × Option AExpr × Option AExpr × Option AExpr × Option AArray))
      (functions : List (List Char × AExpr))
  | union (name : List Char) (tps : List (List Char)) (params : List (List Char))
      (fields : List (List Char × Bool × Nat × Option AExpr × Option AExpr × Option AExpr × Option AArray))
      (functions : List (List Char × AExpr))
  | choice (name : List Char) (tps : List (List Char)) (params : List (List Char)) (selector : AExpr)
      (cases : List (List AExpr × Option (List Char × Bool × Nat × Option AExpr × Option AExpr × Option AExpr × Option AArray)))
      (default : Option (List AExpr × Option (List Char × Bool × Nat × Option AExpr × Option AExpr × Option AExpr × Option AArray)))
      (functions : List (List Char × AExpr))

def AField.shape (f : AField) : List Char × Bool × Nat × Option AExpr × Option AExpr × Option AExpr × Option AArray :=
  (f.name, f.optional, f.alignment, f.initializer, f.constraint, f.optionalClause, f.array)

def AFunction.shape (g : AFunction) : List Char × AExpr := (g.name, g.result)

def AChoiceCase.shape (c : AChoiceCase) :
    List AExpr × Option (List Char × Bool × Nat × Option AExpr × Option AExpr × Option AExpr × Option AArray) :=
  (c.conditions, c.field.map AField.shape)

def ADecl.shape : ADecl → Shape
  | .const n _ v => .const n v
  | .subtype n _ => .subtype n
  | .instantiate n _ => .instantiate n
  | .bitmask n _ vs => .bitmask n vs
  | .enum n _ is => .enum n is
  | .struct n tps ps fs gs => .struct n tps (ps.map AParam.name) (fs.map AField.shape) (gs.map AFunction.shape)
  | .union n tps ps fs gs => .union n tps (ps.map AParam.name) (fs.map AField.shape) (gs.map AFunction.shape)
  | .choice n tps ps sel cs d gs => .choice n tps (ps.map AParam.name) sel (cs.map AChoiceCase.shape) (d.map AChoiceCase.shape)
      (gs.map AFunction.shape)

/-- `d'` is `d` with the references at the handled places resolved, and everything else as it was. -/
def DeclResolved (ps : List APackage) (p : APackage) (d d' : ADecl) : Prop :=
  d'.shape = d.shape ∧
  List.Forall₂ (fun a b : Slot × ATypeRef => a.1 = b.1 ∧
    if a.1.handled then UseResolved ps p d.templateParams a.2 b.2 else b.2 = a.2) d.refs d'.refs

/-- Packages have distinct, nonempty names. -/
structure GoodNames (ps : List APackage) : Prop where
  nodup : (ps.map APackage.name).Nodup
  named : ∀ p ∈ ps, p.name ≠ []

/-! ## From characters to strings -/

theorem ofList_inj {a b : List Char} : String.ofList a = String.ofList b ↔ a = b :=
  ⟨fun h => by simpa using congrArg String.toList h, fun h => by rw [h]⟩

theorem GoodNames.wf {ps : List APackage} (h : GoodNames ps) : PkgModel.WF (ps.map APackage.toPkg) where
  nodup := by
    have : (ps.map APackage.toPkg).map Pkg.name = (ps.map APackage.name).map String.ofList := by
      simp [List.map_map, Function.comp_def, APackage.toPkg]
    rw [this]
    exact h.nodup.map fun _ _ => ofList_inj.mp
  named := by
    intro q hq
    obtain ⟨p, hp, rfl⟩ := List.mem_map.mp hq
    intro hc
    exact h.named p hp (ofList_inj.mp (show String.ofList p.name = String.ofList [] from hc))

theorem toPkg_types (p : APackage) (name : List Char) : String.ofList name ∈ p.toPkg.types ↔ p.DeclaresName name := by
  simp only [APackage.toPkg, List.mem_map, APackage.DeclaresName, ofList_inj]

theorem toPkg_declares (ps : List APackage) (pkg name : List Char) :
    PkgModel.Declares (ps.map APackage.toPkg) (String.ofList pkg) (String.ofList name) ↔ Declared ps pkg name := by
  constructor
  · rintro ⟨q, hq, h1, h2⟩
    obtain ⟨p, hp, rfl⟩ := List.mem_map.mp hq
    exact ⟨p, hp, ofList_inj.mp h1, (toPkg_types p name).mp h2⟩
  · rintro ⟨p, hp, h1, h2⟩
    exact ⟨p.toPkg, List.mem_map_of_mem hp, congrArg String.ofList h1, (toPkg_types p name).mpr h2⟩

def toImport (i : List Char × List Char) : Import := ⟨String.ofList i.1, String.ofList i.2⟩

theorem toImport_offers (ps : List APackage) (name : List Char) (i : List Char × List Char) :
    (toImport i).Offers (ps.map APackage.toPkg) (String.ofList name) ↔ Visible ps name i := by
  unfold Import.Offers Visible
  rw [← toPkg_declares]
  simp only [toImport]
  rw [show ("*" : String) = String.ofList ['*'] from rfl, ofList_inj, ofList_inj]

theorem toPkg_imports (p : APackage) : p.toPkg.imports = p.imports.map toImport := rfl

/-- What is imported is part of the schema. -/
def ImportsKnown (ps : List APackage) (p : APackage) : Prop := ∀ i ∈ p.imports, ∃ q ∈ ps, q.name = i.1

theorem importsKnown_toPkg (ps : List APackage) (p : APackage) :
    ImportsKnown ps p ↔ ∀ i ∈ p.toPkg.imports, ∃ q ∈ ps.map APackage.toPkg, q.name = i.pkg := by
  rw [toPkg_imports]
  simp only [ImportsKnown, List.mem_map, forall_exists_index, and_imp, forall_apply_eq_imp_iff₂, exists_exists_and_eq_and]
  refine forall₂_congr fun i _ => exists_congr fun q => and_congr_right fun _ => ?_
  exact ofList_inj.symm

/-! ## One reference -/

theorem resolvePackage_iff {ps : List APackage} (hw : GoodNames ps) {p : APackage} (hp : p ∈ ps) (hk : ImportsKnown ps p)
    (pkg name pkg' : List Char) :
    (resolvePackage (ps.map APackage.toPkg) p.toPkg (String.ofList pkg) (String.ofList name)).toOption =
      some (String.ofList pkg') ↔ NameMeans ps p pkg name pkg' := by
  have hp' : p.toPkg ∈ ps.map APackage.toPkg := List.mem_map_of_mem hp
  have hk' := (importsKnown_toPkg ps p).mp hk
  unfold NameMeans
  by_cases hpkg : pkg = []
  · subst hpkg
    rw [show String.ofList ([] : List Char) = "" from rfl]
    by_cases hd : p.DeclaresName name
    · rw [C48_own _ hw.wf _ hp' _ ((toPkg_types p name).mpr hd)]
      simp only [Except.toOption, Option.some.injEq, ne_eq, not_true_eq_false, false_and, false_or, true_and, hd, true_and,
        or_false]
      rw [show p.toPkg.name = String.ofList p.name from rfl, ofList_inj, eq_comm]
    · simp only [ne_eq, not_true_eq_false, false_and, false_or, true_and, hd, not_false_eq_true]
      rcases C48_imported _ hw.wf p.toPkg (String.ofList name) (fun h => hd ((toPkg_types p name).mp h)) hk' with
        ⟨pre, i, post, e1, e2, e3, e4⟩ | ⟨e1, e, e2⟩
      · rw [e4]
        rw [toPkg_imports] at e1
        obtain ⟨pre', rest, h1, h2, h3⟩ := List.map_eq_append_iff.mp e1
        obtain ⟨i', post', h4, h5, h6⟩ := List.map_eq_cons_iff.mp h3
        subst h2 h5 h4
        have hpre : ∀ j ∈ pre', ¬ Visible ps name j := by
          intro j hj hv
          exact e2 _ (List.mem_map_of_mem hj) ((toImport_offers ps name j).mpr hv)
        have hi : Visible ps name i' := (toImport_offers ps name i').mp e3
        constructor
        · intro h
          simp only [Except.toOption, Option.some.injEq] at h
          exact ⟨pre', i', post', h1, hpre, hi, (ofList_inj.mp h).symm⟩
        · rintro ⟨pre2, i2, post2, g1, g2, g3, g4⟩
          have : i2 = i' := by
            have hx := h1.symm.trans g1
            have hf : ∀ (l1 l2 : List (List Char × List Char)) (x y : List Char × List Char) (r1 r2 : List (List Char × List Char)),
                l1 ++ x :: r1 = l2 ++ y :: r2 → (∀ j ∈ l1, ¬ Visible ps name j) → (∀ j ∈ l2, ¬ Visible ps name j) →
                Visible ps name x → Visible ps name y → y = x := by
              intro l1
              induction l1 with
              | nil =>
                intro l2 x y r1 r2 h _ b c _
                cases l2 with
                | nil => exact (List.cons.inj h).1.symm
                | cons z l2 =>
                  have := (List.cons.inj h).1
                  subst this
                  exact absurd c (b _ (by simp))
              | cons a l1 ih =>
                intro l2 x y r1 r2 h ha b c d
                cases l2 with
                | nil =>
                  have := (List.cons.inj h).1
                  subst this
                  exact absurd d (ha _ (by simp))
                | cons z l2 =>
                  exact ih l2 x y r1 r2 (List.cons.inj h).2 (fun j hj => ha j (by simp [hj])) (fun j hj => b j (by simp [hj])) c d
            exact hf _ _ _ _ _ _ hx hpre g2 hi g3
          subst this
          simp only [Except.toOption, toImport, g4]
      · rw [e2]
        simp only [Except.toOption, reduceCtorEq, false_iff]
        rintro ⟨pre, i, post, g1, _, g3, _⟩
        refine e1 (toImport i) ?_ ((toImport_offers ps name i).mpr g3)
        rw [toPkg_imports, g1]
        simp
  · have hne : String.ofList pkg ≠ "" := fun h => hpkg (ofList_inj.mp (h.trans rfl))
    simp only [hpkg, ne_eq, not_false_eq_true, true_and, false_and, or_false]
    rw [← toPkg_declares]
    rcases C48_qualified _ hw.wf p.toPkg (String.ofList pkg) (String.ofList name) hne with ⟨e1, e2⟩ | ⟨e1, e, e2⟩
    · rw [e2]
      simp only [Except.toOption, Option.some.injEq, e1, and_true]
      rw [ofList_inj, eq_comm]
    · rw [e2]
      simp [Except.toOption, e1]

mutual
theorem resolveRef_iff {ps : List APackage} (hw : GoodNames ps) {p : APackage} (hp : p ∈ ps) (hk : ImportsKnown ps p)
    (tps : List (List Char)) : ∀ t t' : ATypeRef,
      resolveRef (ps.map APackage.toPkg) p.toPkg tps t = some t' ↔ RefResolved ps p tps t t'
  | .mk true pkg name bits targs args length, t' => by
    simp only [resolveRef, RefResolved, Option.some.injEq, if_true]
    constructor
    · rintro rfl; exact ⟨pkg, targs, rfl, rfl, rfl⟩
    · rintro ⟨_, _, rfl, rfl, rfl⟩; rfl
  | .mk false pkg name bits targs args length, t' => by
    simp only [resolveRef, RefResolved, Bool.false_eq_true, if_false, Option.bind_eq_bind, Option.pure_def,
      Option.bind_eq_some_iff, Option.some.injEq]
    constructor
    · rintro ⟨q, h1, us, h2, rfl⟩
      refine ⟨q.toList, us, rfl, ?_, (resolveRefs_iff hw hp hk tps targs us).mp h2⟩
      rw [← resolvePackage_iff hw hp hk, h1]
      simp
    · rintro ⟨pkg', us, rfl, h1, h2⟩
      exact ⟨String.ofList pkg', (resolvePackage_iff hw hp hk pkg name pkg').mpr h1, us,
        (resolveRefs_iff hw hp hk tps targs us).mpr h2, by simp⟩
theorem resolveRefs_iff {ps : List APackage} (hw : GoodNames ps) {p : APackage} (hp : p ∈ ps) (hk : ImportsKnown ps p)
    (tps : List (List Char)) : ∀ ts ts' : List ATypeRef,
      resolveRefs (ps.map APackage.toPkg) p.toPkg tps ts = some ts' ↔ RefsResolved ps p tps ts ts'
  | [], ts' => by simp only [resolveRefs, RefsResolved, Option.some.injEq, eq_comm]
  | .mk b pkg name bits targs args length :: ts, ts' => by
    simp only [resolveRefs, RefsResolved, Option.bind_eq_bind, Option.pure_def, Option.bind_eq_some_iff, Option.some.injEq]
    have key : ∀ u, (if name ∈ tps then some (ATypeRef.mk b pkg name bits targs args length)
        else resolveRef (ps.map APackage.toPkg) p.toPkg tps (.mk b pkg name bits targs args length)) = some u ↔
        (if name ∈ tps then u = .mk b pkg name bits targs args length
          else RefResolved ps p tps (.mk b pkg name bits targs args length) u) := by
      intro u
      split_ifs
      · rw [Option.some.injEq, eq_comm]
      · exact resolveRef_iff hw hp hk tps _ u
    constructor
    · rintro ⟨u, h1, us, h2, rfl⟩
      exact ⟨u, us, rfl, (key u).mp h1, (resolveRefs_iff hw hp hk tps ts us).mp h2⟩
    · rintro ⟨u, us, rfl, h1, h2⟩
      exact ⟨u, (key u).mpr h1, us, (resolveRefs_iff hw hp hk tps ts us).mpr h2, rfl⟩
end

theorem resolveUse_iff {ps : List APackage} (hw : GoodNames ps) {p : APackage} (hp : p ∈ ps) (hk : ImportsKnown ps p)
    (tps : List (List Char)) (t t' : ATypeRef) :
    resolveUse (ps.map APackage.toPkg) p.toPkg tps t = some t' ↔ UseResolved ps p tps t t' := by
  unfold resolveUse UseResolved
  split_ifs
  · rw [Option.some.injEq, eq_comm]
  · exact resolveRef_iff hw hp hk tps t t'

theorem refUse_iff {ps : List APackage} (hw : GoodNames ps) {p : APackage} (hp : p ∈ ps) (hk : ImportsKnown ps p)
    (t t' : ATypeRef) : resolveRef (ps.map APackage.toPkg) p.toPkg [] t = some t' ↔ UseResolved ps p [] t t' := by
  rw [← resolveUse_iff hw hp hk]
  simp [resolveUse]

/-! ## Lists and declarations -/

theorem visitAll_iff {α β : Type} (f : α → Option β) (as : List α) (bs : List β) :
    visitAll f as = some bs ↔ List.Forall₂ (fun a b => f a = some b) as bs := by
  induction as generalizing bs with
  | nil => simp [visitAll, eq_comm]
  | cons a as ih =>
    simp only [visitAll, Option.bind_eq_bind, Option.pure_def, Option.bind_eq_some_iff, Option.some.injEq]
    constructor
    · rintro ⟨b, h1, bs', h2, rfl⟩
      exact .cons h1 ((ih bs').mp h2)
    · intro h
      cases h with
      | cons h1 h2 => exact ⟨_, h1, _, (ih _).mpr h2, rfl⟩

/-- Lists related element by element have the same shapes, and references related one by one. -/
theorem forall_split {α β γ δ : Type} (s : α → γ) (s' : β → γ) (r : α → δ) (r' : β → δ) (R : δ → δ → Prop) (as : List α)
    (bs : List β) : List.Forall₂ (fun a b => s' b = s a ∧ R (r a) (r' b)) as bs ↔
      bs.map s' = as.map s ∧ List.Forall₂ R (as.map r) (bs.map r') := by
  induction as generalizing bs with
  | nil => cases bs <;> simp
  | cons a as ih =>
    cases bs with
    | nil => simp
    | cons b bs =>
      simp only [List.forall₂_cons, ih, List.map_cons, List.cons.injEq]
      tauto

theorem forall_same_length {α : Type} {R : α → α → Prop} {a b c d : List α} (hl : a.length = c.length) :
    List.Forall₂ R (a ++ b) (c ++ d) ↔ List.Forall₂ R a c ∧ List.Forall₂ R b d := by
  induction a generalizing c with
  | nil =>
    cases c with
    | nil => simp
    | cons x c => simp at hl
  | cons x a ih =>
    cases c with
    | nil => simp at hl
    | cons y c =>
      simp only [List.cons_append, List.forall₂_cons, ih (by simpa using hl), and_assoc]

theorem forall_eq_right {α : Type} (as bs : List α) : List.Forall₂ (fun a b => b = a) as bs ↔ bs = as := by
  induction as generalizing bs with
  | nil => cases bs <;> simp
  | cons a as ih => cases bs <;> simp [ih]

/-- Parameters, by name and type. -/
theorem resolveParam_iff {ps : List APackage} (hw : GoodNames ps) {p : APackage} (hp : p ∈ ps) (hk : ImportsKnown ps p)
    (tps : List (List Char)) (a b : AParam) : resolveParam (ps.map APackage.toPkg) p.toPkg tps a = some b ↔
      b.name = a.name ∧ UseResolved ps p tps a.type b.type := by
  unfold resolveParam
  simp only [Option.map_eq_some_iff, resolveUse_iff hw hp hk]
  constructor
  · rintro ⟨t, h, rfl⟩; exact ⟨rfl, h⟩
  · rintro ⟨h1, h2⟩; exact ⟨b.type, h2, by rw [← h1]⟩

theorem resolveField_iff {ps : List APackage} (hw : GoodNames ps) {p : APackage} (hp : p ∈ ps) (hk : ImportsKnown ps p)
    (tps : List (List Char)) (a b : AField) : resolveField (ps.map APackage.toPkg) p.toPkg tps a = some b ↔
      b.shape = a.shape ∧ UseResolved ps p tps a.type b.type := by
  unfold resolveField
  simp only [Option.map_eq_some_iff, resolveUse_iff hw hp hk]
  constructor
  · rintro ⟨t, h, rfl⟩; exact ⟨rfl, h⟩
  · rintro ⟨h1, h2⟩
    refine ⟨b.type, h2, ?_⟩
    obtain ⟨⟩ := a
    obtain ⟨⟩ := b
    simp only [AField.shape, Prod.mk.injEq] at h1
    simp [h1]

theorem resolveFunction_iff {ps : List APackage} (hw : GoodNames ps) {p : APackage} (hp : p ∈ ps) (hk : ImportsKnown ps p)
    (tps : List (List Char)) (a b : AFunction) : resolveFunction (ps.map APackage.toPkg) p.toPkg tps a = some b ↔
      b.shape = a.shape ∧ UseResolved ps p tps a.returnType b.returnType := by
  unfold resolveFunction
  simp only [Option.map_eq_some_iff, resolveUse_iff hw hp hk]
  constructor
  · rintro ⟨t, h, rfl⟩; exact ⟨rfl, h⟩
  · rintro ⟨h1, h2⟩
    refine ⟨b.returnType, h2, ?_⟩
    obtain ⟨⟩ := a
    obtain ⟨⟩ := b
    simp only [AFunction.shape, Prod.mk.injEq] at h1
    simp [h1]

theorem resolveCases_iff {ps : List APackage} (hw : GoodNames ps) {p : APackage} (hp : p ∈ ps) (hk : ImportsKnown ps p)
    (tps : List (List Char)) (as bs : List AChoiceCase) :
    List.Forall₂ (fun a b => resolveCase (ps.map APackage.toPkg) p.toPkg tps a = some b) as bs ↔
      bs.map AChoiceCase.shape = as.map AChoiceCase.shape ∧
      List.Forall₂ (fun f g : AField => UseResolved ps p tps f.type g.type) (as.filterMap fun c => c.field)
        (bs.filterMap fun c => c.field) := by
  induction as generalizing bs with
  | nil => cases bs <;> simp
  | cons a as ih =>
    cases bs with
    | nil => simp
    | cons b bs =>
      simp only [List.forall₂_cons, ih, List.map_cons, List.cons.injEq]
      obtain ⟨ca, fa⟩ := a
      obtain ⟨cb, fb⟩ := b
      cases fa with
      | none =>
        cases fb with
        | none =>
          simp only [resolveCase, AChoiceCase.shape, Option.map_none, List.filterMap_cons_none, Option.some.injEq,
            AChoiceCase.mk.injEq, and_true, Prod.mk.injEq]
          rw [eq_comm]
          tauto
        | some g => simp [resolveCase, AChoiceCase.shape]
      | some f =>
        cases fb with
        | none =>
          simp only [resolveCase, AChoiceCase.shape, Option.map_eq_some_iff, AChoiceCase.mk.injEq, reduceCtorEq, and_false,
            exists_false, false_and, Option.map_some, Option.map_none, Prod.mk.injEq]
        | some g =>
          have : resolveCase (ps.map APackage.toPkg) p.toPkg tps ⟨ca, some f⟩ = some ⟨cb, some g⟩ ↔
              cb = ca ∧ g.shape = f.shape ∧ UseResolved ps p tps f.type g.type := by
            simp only [resolveCase, Option.map_eq_some_iff, AChoiceCase.mk.injEq, Option.some.injEq,
              resolveField_iff hw hp hk]
            constructor
            · rintro ⟨x, h, rfl, rfl⟩; exact ⟨rfl, h⟩
            · rintro ⟨rfl, h⟩; exact ⟨g, h, rfl, rfl⟩
          rw [this]
          simp only [AChoiceCase.shape, Option.map_some, Prod.mk.injEq, Option.some.injEq]
          rw [List.filterMap_cons_some (f := fun c : AChoiceCase => c.field) (b := f) rfl,
            List.filterMap_cons_some (f := fun c : AChoiceCase => c.field) (b := g) rfl, List.forall₂_cons]
          tauto

/-- Tagging the references of one place with the place. -/
theorem forall_slot {α : Type} (s : Slot) (g : α → ATypeRef) (R : ATypeRef → ATypeRef → Prop) (hs : s.handled = true) (as bs : List α) :
    List.Forall₂ (fun a b : Slot × ATypeRef => a.1 = b.1 ∧ if a.1.handled then R a.2 b.2 else b.2 = a.2)
      (as.map fun a => (s, g a)) (bs.map fun b => (s, g b)) ↔ List.Forall₂ (fun a b => R (g a) (g b)) as bs := by
  simp only [List.forall₂_map_left_iff, List.forall₂_map_right_iff, if_pos hs, true_and]

theorem forall_slot_same {α : Type} (s : Slot) (g : α → ATypeRef) (R : ATypeRef → ATypeRef → Prop) (hs : ¬ s.handled = true)
    (as bs : List α) :
    List.Forall₂ (fun a b : Slot × ATypeRef => a.1 = b.1 ∧ if a.1.handled then R a.2 b.2 else b.2 = a.2)
      (as.map fun a => (s, g a)) (bs.map fun b => (s, g b)) ↔ bs.map g = as.map g := by
  simp only [List.forall₂_map_left_iff, List.forall₂_map_right_iff, if_neg hs, true_and]
  rw [← forall_eq_right, List.forall₂_map_left_iff, List.forall₂_map_right_iff]

theorem functions_eq (as bs : List AFunction) : bs = as ↔
    bs.map AFunction.shape = as.map AFunction.shape ∧ bs.map AFunction.returnType = as.map AFunction.returnType := by
  induction as generalizing bs with
  | nil => simp
  | cons a as ih =>
    cases bs with
    | nil => simp
    | cons b bs =>
      obtain ⟨⟩ := a
      obtain ⟨⟩ := b
      simp only [List.cons.injEq, ih, List.map_cons, AFunction.mk.injEq, AFunction.shape, Prod.mk.injEq]
      tauto

theorem default_eq (a b : Option AChoiceCase) : b = a ↔
    b.map AChoiceCase.shape = a.map AChoiceCase.shape ∧
      ((b.bind fun c => c.field).toList).map AField.type = ((a.bind fun c => c.field).toList).map AField.type := by
  constructor
  · rintro rfl; simp
  · rintro ⟨h1, h2⟩
    match a, b with
    | none, none => rfl
    | none, some _ => simp at h1
    | some _, none => simp at h1
    | some ⟨ca, none⟩, some ⟨cb, none⟩ => simp_all [AChoiceCase.shape]
    | some ⟨ca, some f⟩, some ⟨cb, none⟩ => simp [AChoiceCase.shape] at h1
    | some ⟨ca, none⟩, some ⟨cb, some f⟩ => simp [AChoiceCase.shape] at h1
    | some ⟨ca, some f⟩, some ⟨cb, some g⟩ =>
      obtain ⟨⟩ := f
      obtain ⟨⟩ := g
      simp_all [AChoiceCase.shape, AField.shape]

theorem params_eq {ps : List APackage} (hw : GoodNames ps) {p : APackage} (hp : p ∈ ps) (hk : ImportsKnown ps p)
    (tps : List (List Char)) (as bs : List AParam) : visitAll (resolveParam (ps.map APackage.toPkg) p.toPkg tps) as = some bs ↔
      bs.map AParam.name = as.map AParam.name ∧ List.Forall₂ (fun a b : AParam => UseResolved ps p tps a.type b.type) as bs := by
  rw [visitAll_iff]
  simp only [resolveParam_iff hw hp hk]
  rw [forall_split AParam.name AParam.name AParam.type AParam.type (UseResolved ps p tps), List.forall₂_map_left_iff,
    List.forall₂_map_right_iff]

theorem fields_eq {ps : List APackage} (hw : GoodNames ps) {p : APackage} (hp : p ∈ ps) (hk : ImportsKnown ps p)
    (tps : List (List Char)) (as bs : List AField) : visitAll (resolveField (ps.map APackage.toPkg) p.toPkg tps) as = some bs ↔
      bs.map AField.shape = as.map AField.shape ∧ List.Forall₂ (fun a b : AField => UseResolved ps p tps a.type b.type) as bs := by
  rw [visitAll_iff]
  simp only [resolveField_iff hw hp hk]
  rw [forall_split AField.shape AField.shape AField.type AField.type (UseResolved ps p tps), List.forall₂_map_left_iff,
    List.forall₂_map_right_iff]

theorem functions_iff {ps : List APackage} (hw : GoodNames ps) {p : APackage} (hp : p ∈ ps) (hk : ImportsKnown ps p)
    (tps : List (List Char)) (as bs : List AFunction) :
    visitAll (resolveFunction (ps.map APackage.toPkg) p.toPkg tps) as = some bs ↔
      bs.map AFunction.shape = as.map AFunction.shape ∧
        List.Forall₂ (fun a b : AFunction => UseResolved ps p tps a.returnType b.returnType) as bs := by
  rw [visitAll_iff]
  simp only [resolveFunction_iff hw hp hk]
  rw [forall_split AFunction.shape AFunction.shape AFunction.returnType AFunction.returnType (UseResolved ps p tps),
    List.forall₂_map_left_iff, List.forall₂_map_right_iff]

theorem length_of_map {α β : Type} {f : α → β} {as bs : List α} (h : bs.map f = as.map f) : as.length = bs.length := by
  simpa using (congrArg List.length h).symm

theorem resolveDecl_iff {ps : List APackage} (hw : GoodNames ps) {p : APackage} (hp : p ∈ ps) (hk : ImportsKnown ps p)
    (d d' : ADecl) : resolveDecl (ps.map APackage.toPkg) p.toPkg d = some d' ↔ DeclResolved ps p d d' := by
  unfold DeclResolved
  cases d with
  | const n t v =>
    simp only [resolveDecl, Option.map_eq_some_iff, refUse_iff hw hp hk, ADecl.shape, ADecl.refs, ADecl.templateParams]
    constructor
    · rintro ⟨t', h, rfl⟩; exact ⟨rfl, by simpa [Slot.handled] using h⟩
    · rintro ⟨h1, h2⟩
      cases d' <;> simp at h1
      simp only [List.forall₂_cons, List.forall₂_nil_left_iff, and_true, Slot.handled, if_true, true_and] at h2
      exact ⟨_, h2, by simp [h1]⟩
  | subtype n t =>
    simp only [resolveDecl, Option.map_eq_some_iff, refUse_iff hw hp hk, ADecl.shape, ADecl.refs, ADecl.templateParams]
    constructor
    · rintro ⟨t', h, rfl⟩; exact ⟨rfl, by simpa [Slot.handled] using h⟩
    · rintro ⟨h1, h2⟩
      cases d' <;> simp at h1
      simp only [List.forall₂_cons, List.forall₂_nil_left_iff, and_true, Slot.handled, if_true, true_and] at h2
      exact ⟨_, h2, by simp [h1]⟩
  | instantiate n t =>
    simp only [resolveDecl, Option.map_eq_some_iff, refUse_iff hw hp hk, ADecl.shape, ADecl.refs, ADecl.templateParams]
    constructor
    · rintro ⟨t', h, rfl⟩; exact ⟨rfl, by simpa [Slot.handled] using h⟩
    · rintro ⟨h1, h2⟩
      cases d' <;> simp at h1
      simp only [List.forall₂_cons, List.forall₂_nil_left_iff, and_true, Slot.handled, if_true, true_and] at h2
      exact ⟨_, h2, by simp [h1]⟩
  | bitmask n t vs =>
    simp only [resolveDecl, Option.map_eq_some_iff, refUse_iff hw hp hk, ADecl.shape, ADecl.refs, ADecl.templateParams]
    constructor
    · rintro ⟨t', h, rfl⟩; exact ⟨rfl, by simpa [Slot.handled] using h⟩
    · rintro ⟨h1, h2⟩
      cases d' <;> simp at h1
      simp only [List.forall₂_cons, List.forall₂_nil_left_iff, and_true, Slot.handled, if_true, true_and] at h2
      exact ⟨_, h2, by simp [h1]⟩
  | enum n t is =>
    simp only [resolveDecl, Option.some.injEq, ADecl.shape, ADecl.refs]
    constructor
    · rintro rfl; exact ⟨rfl, by simp [Slot.handled]⟩
    · rintro ⟨h1, h2⟩
      cases d' <;> simp at h1
      simp only [List.forall₂_cons, List.forall₂_nil_left_iff, and_true, Slot.handled, Bool.false_eq_true, if_false, true_and] at h2
      simp [h1, h2]
  | struct n tps as fs gs =>
    simp only [resolveDecl, Option.bind_eq_bind, Option.pure_def, Option.bind_eq_some_iff, Option.some.injEq,
      params_eq hw hp hk, fields_eq hw hp hk, functions_iff hw hp hk, ADecl.templateParams]
    constructor
    · rintro ⟨as', ⟨h1, h2⟩, fs', ⟨h3, h4⟩, gs', ⟨h5, h6⟩, rfl⟩
      refine ⟨by simp only [ADecl.shape, h1, h3, h5], ?_⟩
      simp only [ADecl.refs]
      rw [forall_same_length (by simp [length_of_map h1, length_of_map h3]), forall_same_length (by simp [length_of_map h1]),
        forall_slot .param _ _ rfl, forall_slot .field _ _ rfl, forall_slot .structFunction _ _ rfl]
      exact ⟨⟨h2, h4⟩, h6⟩
    · rintro ⟨h1, h2⟩
      cases d' with
      | struct n' tps' as' fs' gs' =>
        simp only [ADecl.shape, Shape.struct.injEq] at h1
        obtain ⟨rfl, rfl, h3, h4, h5⟩ := h1
        simp only [ADecl.refs] at h2
        rw [forall_same_length (by simp [length_of_map h3, length_of_map h4]), forall_same_length (by simp [length_of_map h3]),
          forall_slot .param _ _ rfl, forall_slot .field _ _ rfl, forall_slot .structFunction _ _ rfl] at h2
        exact ⟨as', ⟨h3, h2.1.1⟩, fs', ⟨h4, h2.1.2⟩, gs', ⟨h5, h2.2⟩, rfl⟩
      | _ => simp [ADecl.shape] at h1
  | union n tps as fs gs =>
    simp only [resolveDecl, Option.bind_eq_bind, Option.pure_def, Option.bind_eq_some_iff, Option.some.injEq,
      params_eq hw hp hk, fields_eq hw hp hk, ADecl.templateParams]
    constructor
    · rintro ⟨as', ⟨h1, h2⟩, fs', ⟨h3, h4⟩, rfl⟩
      refine ⟨by simp only [ADecl.shape, h1, h3], ?_⟩
      simp only [ADecl.refs]
      rw [forall_same_length (by simp [length_of_map h1, length_of_map h3]), forall_same_length (by simp [length_of_map h1]),
        forall_slot .param _ _ rfl, forall_slot .field _ _ rfl, forall_slot_same .unionFunction _ _ (by decide)]
      exact ⟨⟨h2, h4⟩, rfl⟩
    · rintro ⟨h1, h2⟩
      cases d' with
      | union n' tps' as' fs' gs' =>
        simp only [ADecl.shape, Shape.union.injEq] at h1
        obtain ⟨rfl, rfl, h3, h4, h5⟩ := h1
        simp only [ADecl.refs] at h2
        rw [forall_same_length (by simp [length_of_map h3, length_of_map h4]), forall_same_length (by simp [length_of_map h3]),
          forall_slot .param _ _ rfl, forall_slot .field _ _ rfl, forall_slot_same .unionFunction _ _ (by decide)] at h2
        obtain rfl := (functions_eq gs gs').mpr ⟨h5, h2.2⟩
        exact ⟨as', ⟨h3, h2.1.1⟩, fs', ⟨h4, h2.1.2⟩, rfl⟩
      | _ => simp [ADecl.shape] at h1
  | choice n tps as sel cs dc gs =>
    simp only [resolveDecl, Option.bind_eq_bind, Option.pure_def, Option.bind_eq_some_iff, Option.some.injEq,
      params_eq hw hp hk, visitAll_iff, resolveCases_iff hw hp hk, ADecl.templateParams]
    constructor
    · rintro ⟨as', ⟨h1, h2⟩, cs', ⟨h3, h4⟩, rfl⟩
      refine ⟨by simp only [ADecl.shape, h1, h3], ?_⟩
      simp only [ADecl.refs]
      rw [forall_same_length (by simp [length_of_map h1, h4.length_eq]), forall_same_length (by simp [length_of_map h1, h4.length_eq]),
        forall_same_length (by simp [length_of_map h1]),
        forall_slot .param _ _ rfl, forall_slot .caseField _ _ rfl, forall_slot_same .defaultField _ _ (by decide), forall_slot_same .choiceFunction _ _ (by decide)]
      exact ⟨⟨⟨h2, h4⟩, rfl⟩, rfl⟩
    · rintro ⟨h1, h2⟩
      cases d' with
      | choice n' tps' as' sel' cs' dc' gs' =>
        simp only [ADecl.shape, Shape.choice.injEq] at h1
        obtain ⟨rfl, rfl, h3, rfl, h4, h5, h6⟩ := h1
        have hc : (cs.filterMap fun c : AChoiceCase => c.field).length = (cs'.filterMap fun c : AChoiceCase => c.field).length := by
          have : ∀ l : List AChoiceCase, (l.filterMap fun c : AChoiceCase => c.field).map AField.shape =
              (l.map AChoiceCase.shape).filterMap Prod.snd := by
            intro l
            rw [List.filterMap_map, List.map_filterMap]
            rfl
          have h := this cs
          rw [← h4, ← this cs'] at h
          exact length_of_map h.symm
        have hd : (dc.bind fun c : AChoiceCase => c.field).toList.length = (dc'.bind fun c : AChoiceCase => c.field).toList.length := by
          have : ∀ o : Option AChoiceCase, (o.bind fun c : AChoiceCase => c.field).toList.map AField.shape =
              ((o.map AChoiceCase.shape).bind Prod.snd).toList := by
            intro o
            cases o with
            | none => rfl
            | some c => obtain ⟨_, f⟩ := c; cases f <;> rfl
          have h := this dc
          rw [← h5, ← this dc'] at h
          exact length_of_map h.symm
        simp only [ADecl.refs] at h2
        rw [forall_same_length (by simp only [List.length_append, List.length_map, length_of_map h3, hc, hd]),
          forall_same_length (by simp only [List.length_append, List.length_map, length_of_map h3, hc]),
          forall_same_length (by simp [length_of_map h3]),
          forall_slot .param _ _ rfl, forall_slot .caseField _ _ rfl, forall_slot_same .defaultField _ _ (by decide),
          forall_slot_same .choiceFunction _ _ (by decide)] at h2
        obtain rfl := (functions_eq gs gs').mpr ⟨h6, h2.2⟩
        obtain rfl := (default_eq dc dc').mpr ⟨h5, h2.1.2⟩
        exact ⟨as', ⟨h3, h2.1.1.1⟩, cs', ⟨h4, h2.1.1.2⟩, rfl⟩
      | _ => simp [ADecl.shape] at h1

/-! ## Whole schemas -/

/-- **C71**: what resolution does with a schema, and when it succeeds: all imported packages have to be there; every
reference at one of the handled places is given the package that its name stands for, and nothing else changes.  Missing: the
types of enums, of the default case of a choice and of the functions of choices and unions, see `C71_violated_enum` and the
theorems after it. -/
theorem C71_resolved_partial (ps ps' : List APackage) (hw : GoodNames ps) :
    resolveModel ps = some ps' ↔ (∀ p ∈ ps, ImportsKnown ps p) ∧
      List.Forall₂ (fun p p' => p'.name = p.name ∧ p'.imports = p.imports ∧
        List.Forall₂ (DeclResolved ps p) p.decls p'.decls) ps ps' := by
  have hi : ((ps.map APackage.toPkg).all fun p => (resolveImports (ps.map APackage.toPkg) p.imports).toOption.isSome) = true ↔
      ∀ p ∈ ps, ImportsKnown ps p := by
    simp only [List.all_eq_true, List.mem_map, forall_exists_index, and_imp, forall_apply_eq_imp_iff₂]
    refine forall₂_congr fun p _ => ?_
    rw [importsKnown_toPkg, ← C48_imports]
    cases resolveImports (ps.map APackage.toPkg) p.toPkg.imports <;> simp [Except.toOption]
  simp only [resolveModel]
  by_cases hall : ∀ p ∈ ps, ImportsKnown ps p
  · rw [if_pos (hi.mpr hall), visitAll_iff]
    have key : ∀ p ∈ ps, ∀ p', resolvePkgDecls (ps.map APackage.toPkg) p = some p' ↔
        p'.name = p.name ∧ p'.imports = p.imports ∧ List.Forall₂ (DeclResolved ps p) p.decls p'.decls := by
      intro p hp p'
      simp only [resolvePkgDecls, Option.map_eq_some_iff, visitAll_iff, resolveDecl_iff hw hp (hall p hp)]
      constructor
      · rintro ⟨ds, h, rfl⟩; exact ⟨rfl, rfl, h⟩
      · rintro ⟨h1, h2, h3⟩; exact ⟨p'.decls, h3, by rw [← h1, ← h2]⟩
    rw [and_iff_right hall]
    have : ∀ (l l' : List APackage), (∀ p ∈ l, p ∈ ps) →
        (List.Forall₂ (fun a b => resolvePkgDecls (ps.map APackage.toPkg) a = some b) l l' ↔
          List.Forall₂ (fun p p' => p'.name = p.name ∧ p'.imports = p.imports ∧
            List.Forall₂ (DeclResolved ps p) p.decls p'.decls) l l') := by
      intro l
      induction l with
      | nil => intro l' _; cases l' <;> simp
      | cons a l ih =>
        intro l' h
        cases l' with
        | nil => simp
        | cons b l' => rw [List.forall₂_cons, List.forall₂_cons, key a (h a (by simp)), ih l' fun p hp => h p (by simp [hp])]
    exact this ps ps' fun _ h => h
  · have h0 : ¬ (((ps.map APackage.toPkg).all fun p => (resolveImports (ps.map APackage.toPkg) p.imports).toOption.isSome) = true) :=
      fun h => hall (hi.mp h)
    rw [if_neg h0]
    exact ⟨fun h => (by cases h), fun h => absurd h.1 hall⟩

/-- Every name of the reference is bound to a package of the schema that declares it; template parameters among the arguments
stay names. -/
inductive RefBound (ps : List APackage) (tps : List (List Char)) : ATypeRef → Prop where
  | builtin (pkg name : List Char) (bits : Nat) (targs : List ATypeRef) (args : List AExpr) (length : Option AExpr) :
      RefBound ps tps (.mk true pkg name bits targs args length)
  | named (pkg name : List Char) (bits : Nat) (targs : List ATypeRef) (args : List AExpr) (length : Option AExpr)
      (h : Declared ps pkg name) (ha : ∀ t ∈ targs, t.name ∉ tps → RefBound ps tps t) :
      RefBound ps tps (.mk false pkg name bits targs args length)

theorem standsFor_declared {ps : List APackage} {p : APackage} (hp : p ∈ ps) {pkg name pkg' : List Char}
    (h : NameMeans ps p pkg name pkg') : Declared ps pkg' name := by
  rcases h with ⟨_, rfl, h⟩ | ⟨_, h, rfl⟩ | ⟨_, _, _, i, _, _, _, h, rfl⟩
  · exact h
  · exact ⟨p, hp, rfl, h⟩
  · exact h.2

mutual
theorem refResolved_bound {ps : List APackage} {p : APackage} (hp : p ∈ ps) (tps : List (List Char)) :
    ∀ t t' : ATypeRef, RefResolved ps p tps t t' → RefBound ps tps t' ∧ t'.name = t.name
  | .mk b pkg name bits targs args length, t', h => by
    simp only [RefResolved] at h
    obtain ⟨pkg', targs', rfl, h⟩ := h
    refine ⟨?_, rfl⟩
    cases b with
    | true => exact .builtin ..
    | false =>
      rw [if_neg (by simp)] at h
      exact .named _ _ _ _ _ _ (standsFor_declared hp h.1) (refsResolved_bound hp tps targs targs' h.2)
theorem refsResolved_bound {ps : List APackage} {p : APackage} (hp : p ∈ ps) (tps : List (List Char)) :
    ∀ ts ts' : List ATypeRef, RefsResolved ps p tps ts ts' → ∀ t ∈ ts', t.name ∉ tps → RefBound ps tps t
  | [], ts', h => by
    simp only [RefsResolved] at h
    subst h
    intro t ht
    cases ht
  | .mk b pkg name bits targs args length :: ts, ts', h => by
    simp only [RefsResolved] at h
    obtain ⟨u, us, rfl, h1, h2⟩ := h
    intro t ht hn
    rcases List.mem_cons.mp ht with rfl | ht
    · by_cases hm : name ∈ tps
      · rw [if_pos hm] at h1
        subst h1
        exact absurd hm hn
      · rw [if_neg hm] at h1
        exact (refResolved_bound hp tps _ _ h1).1
    · exact refsResolved_bound hp tps ts us h2 t ht hn
end

theorem forall_mem_right {α β : Type} {R : α → β → Prop} {as : List α} {bs : List β} (h : List.Forall₂ R as bs) {b : β}
    (hb : b ∈ bs) : ∃ a ∈ as, R a b := by
  induction h with
  | nil => cases hb
  | cons h1 _ ih =>
    rcases List.mem_cons.mp hb with rfl | hb
    · exact ⟨_, by simp, h1⟩
    · obtain ⟨a, ha, hr⟩ := ih hb
      exact ⟨a, by simp [ha], hr⟩

theorem shape_name {d d' : ADecl} (h : d'.shape = d.shape) : d'.name = d.name := by
  cases d <;> cases d' <;> simp_all [ADecl.shape, ADecl.name]

theorem shape_templateParams {d d' : ADecl} (h : d'.shape = d.shape) : d'.templateParams = d.templateParams := by
  cases d <;> cases d' <;> simp_all [ADecl.shape, ADecl.templateParams]

theorem forall_mem_left {α β : Type} {R : α → β → Prop} {as : List α} {bs : List β} (h : List.Forall₂ R as bs) {a : α}
    (ha : a ∈ as) : ∃ b ∈ bs, R a b := by
  induction h with
  | nil => cases ha
  | cons h1 _ ih =>
    rcases List.mem_cons.mp ha with rfl | ha
    · exact ⟨_, by simp, h1⟩
    · obtain ⟨b, hb, hr⟩ := ih ha
      exact ⟨b, by simp [hb], hr⟩

theorem declared_resolved {ps ps' : List APackage}
    (h : List.Forall₂ (fun p p' => p'.name = p.name ∧ p'.imports = p.imports ∧
        List.Forall₂ (DeclResolved ps p) p.decls p'.decls) ps ps') {pkg name : List Char} (hd : Declared ps pkg name) :
    Declared ps' pkg name := by
  obtain ⟨q, hq, h1, d, hd, h2⟩ := hd
  obtain ⟨q', hq', h3, _, h4⟩ := forall_mem_left h hq
  obtain ⟨d', hd', h5⟩ := forall_mem_left h4 hd
  exact ⟨q', hq', h3.trans h1, d', hd', (shape_name h5.1).trans h2⟩

theorem refBound_mono {ps ps' : List APackage} (hd : ∀ pkg name, Declared ps pkg name → Declared ps' pkg name)
    {tps : List (List Char)} {t : ATypeRef} (h : RefBound ps tps t) : RefBound ps' tps t := by
  induction h with
  | builtin => exact .builtin ..
  | named pkg name bits targs args length h _ ih => exact .named _ _ _ _ _ _ (hd _ _ h) ih

/-- **C71**: in a schema that resolution accepts, every type reference at one of the handled places is afterwards bound to a
package of the schema that declares the name, or is a template parameter of its declaration.  Missing: the other places. -/
theorem C71_bound_partial (ps ps' : List APackage) (hw : GoodNames ps) (h : resolveModel ps = some ps') (p' : APackage)
    (hp' : p' ∈ ps') (d' : ADecl) (hd' : d' ∈ p'.decls) (s : Slot) (t : ATypeRef) (ht : (s, t) ∈ d'.refs)
    (hs : s.handled = true) :
    (t.pkg = [] ∧ t.name ∈ d'.templateParams) ∨ RefBound ps' d'.templateParams t := by
  obtain ⟨_, hf⟩ := (C71_resolved_partial ps ps' hw).mp h
  obtain ⟨p, hp, _, _, h3⟩ := forall_mem_right hf hp'
  obtain ⟨d, _, h4, h5⟩ := forall_mem_right h3 hd'
  obtain ⟨⟨s0, t0⟩, _, h6, h7⟩ := forall_mem_right h5 ht
  simp only at h6 h7
  subst h6
  rw [if_pos hs] at h7
  rw [shape_templateParams h4]
  unfold UseResolved at h7
  split_ifs at h7 with hc
  · subst h7
    exact .inl hc
  · exact .inr (refBound_mono (fun _ _ => declared_resolved hf) (refResolved_bound hp _ _ _ h7).1)

/-- **C71**: and Go has a name for it, by the package it is bound to. -/
theorem C71_go_partial (ps ps' : List APackage) (hw : GoodNames ps) (h : resolveModel ps = some ps') (p' : APackage)
    (hp' : p' ∈ ps') (d' : ADecl) (hd' : d' ∈ p'.decls) (s : Slot) (t : ATypeRef) (ht : (s, t) ∈ d'.refs)
    (hs : s.handled = true) (hb : t.isBuiltin = false) (hn : t.name ∉ d'.templateParams) :
    ∃ q ∈ ps', q.DeclaresName t.name ∧
      goUserType p'.name t.pkg t.name = some (if q.name = p'.name then title t.name else goPackageAlias q.name ++ '.' :: title t.name) := by
  have hx := C71_bound_partial ps ps' hw h p' hp' d' hd' s t ht hs
  rcases hx with hx | hx
  · exact absurd hx.2 hn
  · cases hx with
    | builtin => simp [ATypeRef.isBuiltin] at hb
    | named pkg name bits targs args length hd =>
      obtain ⟨q, hq, h1, h2⟩ := hd
      refine ⟨q, hq, h2, ?_⟩
      obtain ⟨_, hf⟩ := (C71_resolved_partial ps ps' hw).mp h
      obtain ⟨q0, hq0, h3, _⟩ := forall_mem_right hf hq
      have hne : pkg ≠ [] := by
        rw [← h1, h3]
        exact hw.named q0 hq0
      by_cases he : pkg = p'.name
      · have hne' : p'.name ≠ [] := he ▸ hne
        simp [goUserType, ATypeRef.pkg, ATypeRef.name, h1, hne', he]
      · simp [goUserType, ATypeRef.pkg, ATypeRef.name, h1, hne, he]

/-! ## When it is accepted -/

mutual
/-- Every name of the reference stands for something. -/
def RefKnown (ps : List APackage) (p : APackage) (tps : List (List Char)) : ATypeRef → Prop
  | .mk b pkg name _ targs _ _ => b = true ∨ ((∃ pkg', NameMeans ps p pkg name pkg') ∧ RefsKnown ps p tps targs)
def RefsKnown (ps : List APackage) (p : APackage) (tps : List (List Char)) : List ATypeRef → Prop
  | [] => True
  | .mk b pkg name bits targs args length :: ts =>
    (name ∈ tps ∨ RefKnown ps p tps (.mk b pkg name bits targs args length)) ∧ RefsKnown ps p tps ts
end

mutual
theorem refKnown_iff (ps : List APackage) (p : APackage) (tps : List (List Char)) :
    ∀ t : ATypeRef, (∃ t', RefResolved ps p tps t t') ↔ RefKnown ps p tps t
  | .mk b pkg name bits targs args length => by
    simp only [RefResolved, RefKnown, ← refsKnown_iff ps p tps targs]
    cases b with
    | true =>
      simp only [if_true, true_or, iff_true]
      exact ⟨_, pkg, targs, rfl, rfl, rfl⟩
    | false =>
      simp only [Bool.false_eq_true, if_false, false_or]
      constructor
      · rintro ⟨_, pkg', targs', _, h1, h2⟩; exact ⟨⟨pkg', h1⟩, targs', h2⟩
      · rintro ⟨⟨pkg', h1⟩, targs', h2⟩; exact ⟨_, pkg', targs', rfl, h1, h2⟩
theorem refsKnown_iff (ps : List APackage) (p : APackage) (tps : List (List Char)) :
    ∀ ts : List ATypeRef, (∃ ts', RefsResolved ps p tps ts ts') ↔ RefsKnown ps p tps ts
  | [] => by simp [RefsResolved, RefsKnown]
  | .mk b pkg name bits targs args length :: ts => by
    simp only [RefsResolved, RefsKnown, ← refsKnown_iff ps p tps ts,
      ← refKnown_iff ps p tps (.mk b pkg name bits targs args length)]
    by_cases hm : name ∈ tps
    · simp only [hm, true_or, true_and, if_true]
      constructor
      · rintro ⟨_, _, us, _, _, h⟩; exact ⟨us, h⟩
      · rintro ⟨us, h⟩; exact ⟨_, _, us, rfl, rfl, h⟩
    · simp only [hm, false_or, if_false]
      constructor
      · rintro ⟨_, u, us, _, h1, h2⟩; exact ⟨⟨u, h1⟩, us, h2⟩
      · rintro ⟨⟨u, h1⟩, us, h2⟩; exact ⟨_, u, us, rfl, h1, h2⟩
end

/-- The same where the reference may be a template parameter. -/
def UseKnown (ps : List APackage) (p : APackage) (tps : List (List Char)) (t : ATypeRef) : Prop :=
  (t.pkg = [] ∧ t.name ∈ tps) ∨ RefKnown ps p tps t

theorem useKnown_iff (ps : List APackage) (p : APackage) (tps : List (List Char)) (t : ATypeRef) :
    (∃ t', UseResolved ps p tps t t') ↔ UseKnown ps p tps t := by
  unfold UseResolved UseKnown
  by_cases h : t.pkg = [] ∧ t.name ∈ tps
  · simp [h]
  · simp only [h, false_or, if_false]
    exact refKnown_iff ps p tps t

theorem use_none {ps : List APackage} (hw : GoodNames ps) {p : APackage} (hp : p ∈ ps) (hk : ImportsKnown ps p)
    (tps : List (List Char)) (t : ATypeRef) :
    resolveUse (ps.map APackage.toPkg) p.toPkg tps t = none ↔ ¬ UseKnown ps p tps t := by
  rw [← useKnown_iff, Option.eq_none_iff_forall_ne_some]
  simp only [ne_eq, resolveUse_iff hw hp hk, not_exists]

theorem ref_none {ps : List APackage} (hw : GoodNames ps) {p : APackage} (hp : p ∈ ps) (hk : ImportsKnown ps p) (t : ATypeRef) :
    resolveRef (ps.map APackage.toPkg) p.toPkg [] t = none ↔ ¬ UseKnown ps p [] t := by
  rw [← use_none hw hp hk]
  simp [resolveUse]

theorem decl_none {ps : List APackage} (hw : GoodNames ps) {p : APackage} (hp : p ∈ ps) (hk : ImportsKnown ps p) (d : ADecl) :
    resolveDecl (ps.map APackage.toPkg) p.toPkg d = none ↔
      ∃ s t, (s, t) ∈ d.refs ∧ s.handled = true ∧ ¬ UseKnown ps p d.templateParams t := by
  have hpar : ∀ (tps : List (List Char)) (as : List AParam),
      visitAll (resolveParam (ps.map APackage.toPkg) p.toPkg tps) as = none ↔ ∃ a ∈ as, ¬ UseKnown ps p tps a.type := by
    intro tps as
    simp only [visitAll_none, resolveParam, Option.map_eq_none_iff, use_none hw hp hk]
  have hfld : ∀ (tps : List (List Char)) (as : List AField),
      visitAll (resolveField (ps.map APackage.toPkg) p.toPkg tps) as = none ↔ ∃ a ∈ as, ¬ UseKnown ps p tps a.type := by
    intro tps as
    simp only [visitAll_none, resolveField, Option.map_eq_none_iff, use_none hw hp hk]
  have hfun : ∀ (tps : List (List Char)) (as : List AFunction),
      visitAll (resolveFunction (ps.map APackage.toPkg) p.toPkg tps) as = none ↔
        ∃ a ∈ as, ¬ UseKnown ps p tps a.returnType := by
    intro tps as
    simp only [visitAll_none, resolveFunction, Option.map_eq_none_iff, use_none hw hp hk]
  have hcase : ∀ (tps : List (List Char)) (as : List AChoiceCase),
      visitAll (resolveCase (ps.map APackage.toPkg) p.toPkg tps) as = none ↔
        ∃ c ∈ as, ∃ f, c.field = some f ∧ ¬ UseKnown ps p tps f.type := by
    intro tps as
    rw [visitAll_none]
    refine exists_congr fun c => and_congr_right fun _ => ?_
    unfold resolveCase
    cases c.field with
    | none => simp
    | some f => simp [resolveField, use_none hw hp hk]
  have hnone3 : ∀ {α β γ δ : Type} (x : Option α) (y : Option β) (z : Option γ) (k : α → β → γ → δ),
      (x.bind fun a => y.bind fun b => z.bind fun c => some (k a b c)) = none ↔ x = none ∨ y = none ∨ z = none := by
    intro α β γ δ x y z k
    cases x <;> cases y <;> cases z <;> simp
  have hnone2 : ∀ {α β δ : Type} (x : Option α) (y : Option β) (k : α → β → δ),
      (x.bind fun a => y.bind fun b => some (k a b)) = none ↔ x = none ∨ y = none := by
    intro α β δ x y k
    cases x <;> cases y <;> simp
  cases d with
  | const n t v => simp [resolveDecl, ref_none hw hp hk, ADecl.refs, ADecl.templateParams, Slot.handled]
  | subtype n t => simp [resolveDecl, ref_none hw hp hk, ADecl.refs, ADecl.templateParams, Slot.handled]
  | instantiate n t => simp [resolveDecl, ref_none hw hp hk, ADecl.refs, ADecl.templateParams, Slot.handled]
  | bitmask n t vs => simp [resolveDecl, ref_none hw hp hk, ADecl.refs, ADecl.templateParams, Slot.handled]
  | enum n t is => simp [resolveDecl, ADecl.refs, Slot.handled]
  | struct n tps as fs gs =>
    simp only [resolveDecl, Option.bind_eq_bind, Option.pure_def, hnone3, hpar, hfld, hfun, ADecl.refs, ADecl.templateParams,
      List.mem_append, List.mem_map, Prod.mk.injEq]
    constructor
    · rintro (⟨a, h1, h2⟩ | ⟨a, h1, h2⟩ | ⟨a, h1, h2⟩)
      · exact ⟨.param, _, .inl (.inl ⟨a, h1, rfl, rfl⟩), rfl, h2⟩
      · exact ⟨.field, _, .inl (.inr ⟨a, h1, rfl, rfl⟩), rfl, h2⟩
      · exact ⟨.structFunction, _, .inr ⟨a, h1, rfl, rfl⟩, rfl, h2⟩
    · rintro ⟨s, t, (⟨a, h1, _, rfl⟩ | ⟨a, h1, _, rfl⟩) | ⟨a, h1, _, rfl⟩, _, h2⟩
      · exact .inl ⟨a, h1, h2⟩
      · exact .inr (.inl ⟨a, h1, h2⟩)
      · exact .inr (.inr ⟨a, h1, h2⟩)
  | union n tps as fs gs =>
    simp only [resolveDecl, Option.bind_eq_bind, Option.pure_def, hnone2, hpar, hfld, ADecl.refs, ADecl.templateParams,
      List.mem_append, List.mem_map, Prod.mk.injEq]
    constructor
    · rintro (⟨a, h1, h2⟩ | ⟨a, h1, h2⟩)
      · exact ⟨.param, _, .inl (.inl ⟨a, h1, rfl, rfl⟩), rfl, h2⟩
      · exact ⟨.field, _, .inl (.inr ⟨a, h1, rfl, rfl⟩), rfl, h2⟩
    · rintro ⟨s, t, (⟨a, h1, _, rfl⟩ | ⟨a, h1, _, rfl⟩) | ⟨a, h1, rfl, rfl⟩, h3, h2⟩
      · exact .inl ⟨a, h1, h2⟩
      · exact .inr ⟨a, h1, h2⟩
      · cases h3
  | choice n tps as sel cs dc gs =>
    simp only [resolveDecl, Option.bind_eq_bind, Option.pure_def, hnone2, hpar, hcase, ADecl.refs, ADecl.templateParams,
      List.mem_append, List.mem_map, List.mem_filterMap, Prod.mk.injEq]
    constructor
    · rintro (⟨a, h1, h2⟩ | ⟨c, h1, f, h2, h3⟩)
      · exact ⟨.param, _, .inl (.inl (.inl ⟨a, h1, rfl, rfl⟩)), rfl, h2⟩
      · exact ⟨.caseField, _, .inl (.inl (.inr ⟨f, ⟨c, h1, h2⟩, rfl, rfl⟩)), rfl, h3⟩
    · rintro ⟨s, t, ((⟨a, h1, _, rfl⟩ | ⟨f, ⟨c, h1, h4⟩, _, rfl⟩) | ⟨a, h1, rfl, rfl⟩) | ⟨a, h1, rfl, rfl⟩, h3, h2⟩
      · exact .inl ⟨a, h1, h2⟩
      · exact .inr ⟨c, h1, f, h4, h2⟩
      · cases h3
      · cases h3

/-- **C71**: which schemas are accepted: those where every imported package is there and every name at one of the handled
places stands for something. -/
theorem C71_accepted (ps : List APackage) (hw : GoodNames ps) :
    (∃ ps', resolveModel ps = some ps') ↔ (∀ p ∈ ps, ImportsKnown ps p) ∧
      ∀ p ∈ ps, ∀ d ∈ p.decls, ∀ s t, (s, t) ∈ d.refs → s.handled = true → UseKnown ps p d.templateParams t := by
  constructor
  · rintro ⟨ps', h⟩
    obtain ⟨h1, h2⟩ := (C71_resolved_partial ps ps' hw).mp h
    refine ⟨h1, ?_⟩
    intro p hp d hd s t hst hs
    obtain ⟨p', _, _, _, h3⟩ := forall_mem_left h2 hp
    obtain ⟨d', _, h4⟩ := forall_mem_left h3 hd
    by_contra hc
    have := (decl_none hw hp (h1 p hp) d).mpr ⟨s, t, hst, hs, hc⟩
    rw [(resolveDecl_iff hw hp (h1 p hp) d d').mpr h4] at this
    cases this
  · rintro ⟨h1, h2⟩
    have : ∀ p ∈ ps, ∃ ds, List.Forall₂ (DeclResolved ps p) p.decls ds := by
      intro p hp
      have : visitAll (resolveDecl (ps.map APackage.toPkg) p.toPkg) p.decls ≠ none := by
        rw [ne_eq, visitAll_none]
        rintro ⟨d, hd, hn⟩
        obtain ⟨s, t, a, b, c⟩ := (decl_none hw hp (h1 p hp) d).mp hn
        exact c (h2 p hp d hd s t a b)
      obtain ⟨ds, hds⟩ := Option.ne_none_iff_exists'.mp this
      refine ⟨ds, ?_⟩
      have := (visitAll_iff _ _ _).mp hds
      simpa only [resolveDecl_iff hw hp (h1 p hp)] using this
    have ex : ∀ l : List APackage, (∀ p ∈ l, p ∈ ps) → ∃ l' : List APackage, List.Forall₂ (fun p p' => p'.name = p.name ∧
        p'.imports = p.imports ∧ List.Forall₂ (DeclResolved ps p) p.decls p'.decls) l l' := by
      intro l
      induction l with
      | nil => exact fun _ => ⟨[], .nil⟩
      | cons a l ih =>
        intro h
        obtain ⟨l', hl⟩ := ih fun p hp => h p (by simp [hp])
        obtain ⟨ds, hds⟩ := this a (h a (by simp))
        exact ⟨⟨a.name, a.imports, ds⟩ :: l', .cons ⟨rfl, rfl, hds⟩ hl⟩
    obtain ⟨l', hl⟩ := ex ps fun _ h => h
    exact ⟨l', (C71_resolved_partial ps l' hw).mpr ⟨h1, hl⟩⟩

/-! ## Examples and violations -/

/-- `name` without package, and `uint8` -/
def plainRef (name : String) : ATypeRef := .mk false [] name.toList 0 [] [] none
def uint8Ref : ATypeRef := .mk true [] "uint8".toList 0 [] [] none
def plainField (name : String) (t : ATypeRef) : AField := ⟨name.toList, false, 0, t, none, none, none, none⟩

/-- Packages `a`, importing all of `b`, and `b`, which declares `subtype uint8 T;` -/
def slotSchema (d : ADecl) : List APackage :=
  [⟨"a".toList, [("b".toList, "*".toList)], [d]⟩, ⟨"b".toList, [], [.subtype "T".toList uint8Ref]⟩]

theorem slotSchema_good (d : ADecl) : GoodNames (slotSchema d) where
  nodup := by simp [slotSchema]
  named := by simp [slotSchema]

/-- `struct S { T x; };` becomes `struct S { b.T x; };`, which Go calls `b.T`. -/
example : resolveModel (slotSchema (.struct "S".toList [] [] [plainField "x" (plainRef "T")] [])) =
      some (slotSchema (.struct "S".toList [] [] [plainField "x" (.mk false "b".toList "T".toList 0 [] [] none)] [])) ∧
    goUserType "a".toList "b".toList "T".toList = some "b.T".toList :=
  ⟨rfl, rfl⟩

/-- `struct S<P> { P x; b.X<P> y; };` with an unknown type is rejected. -/
example : resolveModel (slotSchema (.struct "S".toList ["P".toList] [] [plainField "x" (plainRef "P"),
    plainField "y" (.mk false "b".toList "X".toList 0 [plainRef "P"] [] none)] [])) = none := rfl

/-- A schema in which every name stands for something is accepted, and a reference at place `s` stays without package, so
that there is no Go type for it. -/
def LeftUnresolved (s : Slot) : Prop :=
  ∃ ps ps' : List APackage, GoodNames ps ∧ resolveModel ps = some ps' ∧
    (∀ p ∈ ps, ∀ d ∈ p.decls, ∀ s t, (s, t) ∈ d.refs → UseKnown ps p d.templateParams t) ∧
    ∃ p ∈ ps', ∃ d ∈ p.decls, ∃ t, (s, t) ∈ d.refs ∧ t.isBuiltin = false ∧ t.name ∉ d.templateParams ∧
      goUserType p.name t.pkg t.name = none

theorem leftUnresolved_of (s : Slot) (d : ADecl) (h : resolveModel (slotSchema d) = some (slotSchema d))
    (hr : d.refs = [(s, plainRef "T")]) (ht : "T".toList ∉ d.templateParams) (hn : d.name ≠ "T".toList) : LeftUnresolved s := by
  refine ⟨slotSchema d, slotSchema d, slotSchema_good d, h, ?_, ?_⟩
  · intro p hp e he s' t' hst
    simp only [slotSchema, List.mem_cons, List.not_mem_nil, or_false] at hp
    rcases hp with rfl | rfl
    · simp only [List.mem_cons, List.not_mem_nil, or_false] at he
      subst he
      rw [hr] at hst
      simp only [List.mem_cons, List.not_mem_nil, or_false, Prod.mk.injEq] at hst
      obtain ⟨rfl, rfl⟩ := hst
      refine .inr ?_
      simp only [plainRef, RefKnown, RefsKnown, and_true]
      refine .inr ⟨"b".toList, .inr (.inr ⟨rfl, ?_, [], ("b".toList, "*".toList), [], rfl, by simp, ⟨.inl rfl, ?_⟩, rfl⟩)⟩
      · rintro ⟨x, hx, hx2⟩
        simp only [List.mem_cons, List.not_mem_nil, or_false] at hx
        subst hx
        exact hn hx2
      · exact ⟨_, by simp [slotSchema]; exact .inr rfl, rfl, .subtype "T".toList uint8Ref, by simp, rfl⟩
    · simp only [List.mem_cons, List.not_mem_nil, or_false] at he
      subst he
      simp only [ADecl.refs, List.mem_cons, List.not_mem_nil, or_false, Prod.mk.injEq] at hst
      obtain ⟨rfl, rfl⟩ := hst
      exact .inr (by simp [uint8Ref, RefKnown])
  · exact ⟨_, by simp only [slotSchema]; exact List.mem_cons_self, d, by simp, plainRef "T", by simp [hr], rfl, ht, rfl⟩

/-- C71: the type of an enum is not resolved: `enum T E { x };` is accepted and has no Go type. -/
theorem C71_violated_enum : LeftUnresolved .enum :=
  leftUnresolved_of .enum (.enum "E".toList (plainRef "T") [⟨"x".toList, none⟩]) rfl rfl (by simp [ADecl.templateParams]) (by simp [ADecl.name])

/-- C71: nor is the type of the field of the default case: `choice C on 1 { default: T x; };` -/
theorem C71_violated_default : LeftUnresolved .defaultField :=
  leftUnresolved_of .defaultField (.choice "C".toList [] [] (.leaf .decimalLiteral "1".toList) []
    (some ⟨[], some (plainField "x" (plainRef "T"))⟩) []) rfl rfl (by simp [ADecl.templateParams]) (by simp [ADecl.name])

/-- C71: nor the type of a function of a choice. -/
theorem C71_violated_choice_function : LeftUnresolved .choiceFunction :=
  leftUnresolved_of .choiceFunction (.choice "C".toList [] [] (.leaf .decimalLiteral "1".toList) [] none
    [⟨"f".toList, plainRef "T", .leaf .decimalLiteral "2".toList⟩]) rfl rfl (by simp [ADecl.templateParams]) (by simp [ADecl.name])

/-- C71: nor the type of a function of a union. -/
theorem C71_violated_union_function : LeftUnresolved .unionFunction :=
  leftUnresolved_of .unionFunction (.union "U".toList [] [] []
    [⟨"f".toList, plainRef "T", .leaf .decimalLiteral "2".toList⟩]) rfl rfl (by simp [ADecl.templateParams]) (by simp [ADecl.name])

/-- The files `package a; import b.T; struct S { T x; };` and `package b; subtype uint8 T;` -/
def importFiles : List CPackage :=
  [⟨none, some (ident "a" rfl, []), [⟨ident "b" rfl, [], some (ident "T" rfl)⟩],
      [demoStruct [{ demoField none false with typeId := ⟨false, false, ⟨.named (ident "T" rfl) [] [], .none⟩, ident "x" rfl, none⟩ }]]⟩,
    ⟨none, some (ident "b" rfl, []), [], [.subtype (.builtin (.word .uint8)) (ident "T" rfl)]⟩]

/-- C71: a type that is imported by its name cannot be used: with `import b.*` the schema is accepted, with `import b.T` it is
not. -/
theorem C71_violated_import :
    ((loadPackages [] importFiles).bind resolveModel).isSome = false ∧
      ((loadPackages [] (importFiles.map fun f => { f with imports := f.imports.map fun i => { i with last := none } })).bind
        resolveModel).isSome = true :=
  ⟨rfl, rfl⟩

end Verif
