import Verif.Props.Generate
import Verif.Props.NoPanic

/-!
# C91 from the text of a schema

`compileText` and `SchemaMeans` of C90 together with C91: the conditions are about what is written in the schema.
-/

namespace Verif

/-- Array lengths are not negative. -/
def Decl.LengthsOk (D : Decl) : Prop := ∀ f ∈ D.allFields, ∀ env l, (f.exprs env).len = some l → 0 ≤ l

/-- Widths of `int<…>` are at most 64. -/
def Decl.WidthsOk (D : Decl) : Prop := ∀ f ∈ D.allFields, ∀ env n, f.ty = .prim (.sbits 64 64) → (f.exprs env).width = some n → n ≤ 64

/-- No type has a member of its own type, also not inside another member: there is an order in which members come before the types that have them. -/
def NotRecursive (ds : List Decl) : Prop :=
  ∃ rank : Nat → Nat, ∀ i D, ds[i]? = some D → ∀ f ∈ D.allFields, ∀ m, f.ty = .comp m → rank m < rank i

theorem Elem.Wf.readable {k : Elem} (h : k.Wf) : k.Readable := by
  cases k <;> first | exact Nat.le_trans h.2.1 h.2.2 | trivial

theorem RefersTo.readable {p : CPackage} {r : CTypeRef} {d : Nat} {ty : FTy} (h : RefersTo p r d ty) : ∀ k, ty = .prim k → k.Readable := by
  induction h with
  | builtin hd => rintro k ⟨⟩; exact hd.wf.readable
  | own => rintro k ⟨⟩
  | subtype _ _ ih => exact ih

theorem InstMeans.readable {a : Place} {isArray : Bool} {t : CTypeInst} {ty : FTy} {cast : Bool} {width : Env → Option Nat} {args : Env → Option (Nat → List Val)}
    (h : InstMeans a isArray t ty cast width args) (hw : ∀ env n, ty = .prim (.sbits 64 64) → width env = some n → n ≤ 64) (env : Env) :
    ∀ k, ty = .prim k → (k.withWidth (width env)).Readable := by
  cases h with
  | plain _ h =>
    intro k hk
    have : k.withWidth none = k := by cases k <;> rfl
    rw [this]
    exact h.readable k hk
  | @bits signed e g f =>
    rintro k ⟨⟩
    cases signed with
    | false => trivial
    | true => exact hw env _ rfl rfl
  | args => rintro k ⟨⟩

theorem SchemaMeans.tame {p : CPackage} {ds : List Decl} (h : SchemaMeans p ds) (hl : ∀ D ∈ ds, D.LengthsOk) (hw : ∀ D ∈ ds, D.WidthsOk) : ∀ D ∈ ds, D.Tame := by
  obtain ⟨os, hm, rfl⟩ := h
  intro D hD
  have hl := hl D hD
  have hw := hw D hD
  obtain ⟨o, ho, e⟩ := List.mem_filterMap.1 hD
  cases e
  obtain ⟨d, _, hd⟩ := forall₂_right hm _ ho
  have field : ∀ {a : Place} {c : CField} {g : Field}, FieldMeans a c g → g ∈ D.allFields → g.Tame := by
    intro a c g hg hmem env
    refine ⟨hl g hmem env, ?_⟩
    have := hw g hmem
    obtain ⟨_, _, _, _, _, h6, _⟩ := hg
    exact h6.readable this env
  have member : ∀ {a : Place} {c : CChoiceField} {g : Field}, MemberMeans a c g → g ∈ D.allFields → g.Tame := by
    intro a c g hg hmem env
    refine ⟨hl g hmem env, ?_⟩
    have := hw g hmem
    obtain ⟨_, h6, _⟩ := hg
    exact h6.readable this env
  cases hd with
  | @«structure» n ps cs fs gs h0 h1 _ _ h2 =>
    refine ⟨fun g hg => ?_, nofun⟩
    obtain ⟨j, hj⟩ := List.mem_iff_getElem?.1 hg
    have hlt : j < fs.length := (List.getElem?_eq_some_iff.1 hj).1
    exact field (h1 j cs[j] g (List.getElem?_eq_getElem (by omega)) hj) hg
  | union h1 => exact ⟨fun g hg => (forall₂_right h1 g hg).elim fun _ h => member h.2 hg, nofun⟩
  | @choice n x ps i s k o w cs es d g gs h1 hs h2 h3 h4 =>
    refine ⟨fun f hf => ?_, nofun⟩
    rcases List.mem_append.1 hf with hf' | hf'
    · obtain ⟨e, he, e1⟩ := List.mem_filterMap.1 hf'
      obtain ⟨c, _, hc⟩ := forall₂_right h3 e he
      obtain @⟨ls, g', _, hg⟩ := hc
      generalize c.field = y at hg
      cases hg with
      | no => cases e1
      | yes hg => cases e1; exact member hg hf
    · cases h4 with
      | no => cases hf'
      | empty => cases hf'
      | yes _ h =>
        obtain rfl : f = _ := by simpa using hf'
        exact member h hf
  | enum h1 => exact ⟨nofun, fun k e => by cases e; exact h1.wf.readable⟩
  | bitmask h1 => exact ⟨nofun, fun k e => by cases e; exact h1.wf.readable⟩

/-- **C91** for the text of a schema: if no array length of the schema can be negative, no `int<…>` wider than 64 bits and no type has a member of its
own type, then decoding any input into a new object gives an object or an error, and no panic.

Missing: schemas outside the domain of C90; the conditions cannot be left out (`C91_violated_length`, `C91_violated_width`, `C91_violated_recursive`). -/
theorem C91_text_partial {p : CPackage} {s : List Char} (ht : TextOf p s) (hc : Closed p) {ds : List Decl} (hm : SchemaMeans p ds)
    (hl : ∀ D ∈ ds, D.LengthsOk) (hw : ∀ D ∈ ds, D.WidthsOk) (hr : NotRecursive ds) :
    ∃ code, compileText s = some code ∧ ∃ depth : Nat → Nat, ∀ (n name : Nat), depth name < n → ∀ input : RState,
      (∃ v, (rrun ((methods (byNumber code) n name).unmarshal (methods (byNumber code) n name).zero) input).1 = .ok v ∧ IsObject (byNumber code) n name v) ∨
      ∃ e, (rrun ((methods (byNumber code) n name).unmarshal (methods (byNumber code) n name).zero) input).1 = .error e ∧ e.isPanic = false := by
  obtain ⟨rank, hrank⟩ := hr
  have tame : ∀ name, (byNumber ds name).Tame := fun i => byNumber_all (Q := Decl.Tame) (hm.tame hl hw) ⟨nofun, nofun⟩ i
  refine ⟨ds, C90_schema_partial ht hc hm, rank, fun n name hn input => ?_⟩
  refine C91_decode (byNumber ds) tame rank (fun i f hf m hfm => ?_) n name hn _ (zero_object _ tame n name) input
  cases hi : ds[i]? with
  | none =>
    have : byNumber ds i = .struct [] := by unfold byNumber; rw [List.getD_eq_getElem?_getD, hi]; rfl
    rw [this] at hf
    cases hf
  | some D =>
    have : byNumber ds i = D := by unfold byNumber; rw [List.getD_eq_getElem?_getD, hi]; rfl
    rw [this] at hf
    exact hrank i D hi f hf m hfm

/-- C91 for the text `package p; choice C(uint8 x) on x { case 1: uint16 a; case 2: bit<x> b; }; struct S { uint8 n; C(n) c; };` -/
example : ∃ code, compileText (piecesText (spaced exChoiceTokens)) = some code ∧ ∃ depth : Nat → Nat, ∀ (n name : Nat), depth name < n → ∀ input : RState,
    (∃ v, (rrun ((methods (byNumber code) n name).unmarshal (methods (byNumber code) n name).zero) input).1 = .ok v ∧ IsObject (byNumber code) n name v) ∨
    ∃ e, (rrun ((methods (byNumber code) n name).unmarshal (methods (byNumber code) n name).zero) input).1 = .error e ∧ e.isPanic = false := by
  have fields : ∀ D ∈ exChosen, ∀ f ∈ D.allFields, (∀ env, (f.exprs env).len = none) ∧ f.ty ≠ .prim (.sbits 64 64) := by
    intro D hD f hf
    simp only [exChosen, List.mem_cons, List.not_mem_nil, or_false] at hD
    rcases hD with rfl | rfl <;> simp [Decl.allFields, choiceFields] at hf <;> rcases hf with rfl | rfl <;> exact ⟨fun _ => rfl, nofun⟩
  refine C91_text_partial exChoice_text exChoice_closed exChoice_means (fun D hD f hf env l h => ?_) (fun D hD f hf env n h => ?_) ⟨id, fun i D hi f hf m hm => ?_⟩
  · rw [(fields D hD f hf).1 env] at h
    cases h
  · exact absurd h (fields D hD f hf).2
  · rcases i with _ | _ | i
    · cases hi
      simp [Decl.allFields, choiceFields] at hf
      rcases hf with rfl | rfl <;> cases hm
    · cases hi
      simp [Decl.allFields] at hf
      rcases hf with rfl | rfl <;> cases hm
      decide
    · cases hi

end Verif
