import Mathlib.Data.List.Nodup
import Mathlib.Tactic.Common
import Verif.Template

/-!
# Laws of template instantiation

The conditions under which instantiation is substitution (`TPlan`), the invariant of a run and its proof.
-/

namespace Verif

/-! ## Conditions on a schema -/

mutual
/-- The type mentions one of the parameters. -/
def Ty.mentions (ps : List Text) : Ty → Bool
  | .mk b p n _ [] => !b && p == "" && decide (n ∈ ps)
  | .mk _ _ _ _ (a :: as) => Ty.mentions ps a || Ty.mentionsAny ps as
def Ty.mentionsAny (ps : List Text) : List Ty → Bool
  | [] => false
  | a :: as => Ty.mentions ps a || Ty.mentionsAny ps as
end

/-- The first package of the list that declares the name. -/
def seenIn (W : TSchema) (name : Text) : List String → Option String
  | [] => none
  | p :: ps => if (W p name).isSome then some p else seenIn W name ps

/-- The types instantiated in each package (`U`) and the names their instances can get (`Nm`), with the conditions that make
instantiation work. -/
structure TPlan (W : TSchema) (imports : String → List String) where
  U : String → Ty → Prop
  Nm : String → Ty → Text → Prop
  /-- the type is a struct or choice template with the right number of arguments -/
  decl : ∀ {p t}, U p t → t.args ≠ [] ∧ ∃ d, W t.pkg t.name = some d ∧ (d.kind = .struct ∨ d.kind = .choice) ∧
    d.tparams.length = t.args.length ∧ d.tparams.Nodup
  /-- the package that uses the template sees it under its plain name -/
  seen : ∀ {p t}, U p t → seenIn W t.name (p :: imports p) = some t.pkg
  /-- template arguments that are templates with arguments -/
  args : ∀ {p t a}, U p t → a ∈ t.args → a.args ≠ [] → U p a
  /-- fields of the template that are templates with arguments -/
  fields : ∀ {p t d x}, U p t → W t.pkg t.name = some d → x ∈ d.fields → x.ty.args ≠ [] →
    U p (x.ty.subst (d.sigma t.args))
  /-- the argument list of such a field has parameters and types without parameters, no types with parameters inside -/
  flat : ∀ {p t d x a}, U p t → W t.pkg t.name = some d → x ∈ d.fields → a ∈ x.ty.args →
    (a.name ∈ d.tparams → a.isParam a.name) ∧ (a.name ∉ d.tparams → a.mentions d.tparams = false)
  /-- no parameter has the name of a builtin type -/
  builtin : ∀ {p t d x}, U p t → W t.pkg t.name = some d → x ∈ d.fields ∨ x ∈ d.params ∨ x ∈ d.funcs →
    x.ty.builtin = true → x.ty.name ∉ d.tparams
  /-- parameters and function results are not themselves templates with arguments -/
  simple : ∀ {q n d x}, W q n = some d → x ∈ d.params ∨ x ∈ d.funcs → x.ty.args = []
  /-- fields of unions, too -/
  unions : ∀ {q n d x}, W q n = some d → d.kind = .union ∨ d.kind = .other → x ∈ d.fields → x.ty.args = []
  /-- what the declarations ask for -/
  roots : ∀ {p n d x}, W p n = some d → d.tparams = [] → x ∈ d.fields → x.ty.args ≠ [] →
    U p x.ty ∧ (d.kind = .inst → Nm p x.ty n)
  /-- the generated names: an argument goes by its own name or by the name of its instance -/
  names : ∀ {p t ns}, U p t → List.Forall₂ (fun a n => n = Ty.name a ∨ Nm p a n) t.args ns → Nm p t (genName t.name ns)
  /-- different types get different names -/
  inj : ∀ {p t t' n}, U p t → U p t' → Nm p t n → Nm p t' n → t = t'
  /-- that are not declared, except by the `instantiate` declaration of that type -/
  avoid : ∀ {p t n d}, U p t → Nm p t n → W p n = some d → d.kind = .inst ∧ d.tparams = [] ∧ d.fields.map (·.ty) = [t]
  /-- and are not names of templates in use -/
  hide : ∀ {p t n p' t'}, U p t → Nm p t n → U p' t' → n ≠ t'.name

/-- Nested instantiations get smaller in the measure `ρ`. -/
structure TPlan.Ranked {W : TSchema} {imports : String → List String} (P : TPlan W imports) (ρ : String → Ty → Nat) : Prop where
  args : ∀ {p t a}, P.U p t → a ∈ t.args → a.args ≠ [] → ρ p a < ρ p t
  fields : ∀ {p t d x}, P.U p t → W t.pkg t.name = some d → x ∈ d.fields → x.ty.args ≠ [] →
    ρ p (x.ty.subst (d.sigma t.args)) < ρ p t

/-- No part of a template whose type is a template parameter has type arguments. -/
def TPlan.Bare {W : TSchema} {imports : String → List String} (P : TPlan W imports) : Prop :=
  ∀ {p t d x}, P.U p t → W t.pkg t.name = some d → x ∈ d.fields ∨ x ∈ d.params ∨ x ∈ d.funcs → x.ty.name ∈ d.tparams →
    x.ty.isParam x.ty.name → x.tyargs = []

/-! ## Reasoning about runs -/

/-- From `s` code `m` returns with `Q`, or (if `tot` is false) fails or does not return. -/
def Run {α : Type} (tot : Bool) (m : TM α) (s : TSt) (Q : α → TSt → Prop) : Prop :=
  match m s with
  | none => tot = false
  | some (.error _) => tot = false
  | some (.ok (a, s')) => Q a s'

namespace Run
variable {α β : Type} {tot : Bool} {s : TSt}

theorem pure {a : α} {Q : α → TSt → Prop} (h : Q a s) : Run tot (Pure.pure a : TM α) s Q := h

theorem bind {m : TM α} {f : α → TM β} {Q : β → TSt → Prop} (h : Run tot m s fun a s' => Run tot (f a) s' Q) :
    Run tot (m >>= f) s Q := by
  show Run tot (TM.bind m f) s Q
  unfold Run TM.bind at *
  rcases hm : m s with _ | _ | ⟨a, s'⟩ <;> simp only [hm] at h ⊢ <;> exact h

theorem mono {m : TM α} {Q Q' : α → TSt → Prop} (h : Run tot m s Q) (hq : ∀ a s', Q a s' → Q' a s') : Run tot m s Q' := by
  unfold Run at *
  rcases hm : m s with _ | _ | ⟨a, s'⟩ <;> simp only [hm] at h ⊢
  · exact h
  · exact h
  · exact hq a s' h

theorem cell {r : TPtr} {c : TCell} {Q : TCell → TSt → Prop} (hc : s.heap[r]? = some c) (h : Q c s) :
    Run tot (Verif.cell r) s Q := by
  unfold Run Verif.cell
  simp only [hc]
  exact h

theorem get {Q : TSt → TSt → Prop} (h : Q s s) : Run tot TM.get s Q := h

theorem alloc {c : TCell} {Q : TPtr → TSt → Prop} (h : Q s.heap.length { s with heap := s.heap ++ [c] }) :
    Run tot (Verif.alloc c) s Q := h

theorem setTyargs {r : TPtr} {es : List Text} {Q : Unit → TSt → Prop}
    (h : Q () { s with heap := s.heap.modify r fun c => { c with tyargs := es } }) : Run tot (Verif.setTyargs r es) s Q := h

end Run

/-! ## Heaps -/

/-- Every reference stays what it is; `strict` asks for the type arguments, too. -/
def HLe (strict : Bool) (h h' : List TCell) : Prop :=
  ∀ (r : TPtr) (c : TCell), h[r]? = some c → ∃ c' : TCell, h'[r]? = some c' ∧ c'.builtin = c.builtin ∧ c'.pkg = c.pkg ∧ c'.name = c.name ∧
    c'.bits = c.bits ∧ c'.targs = c.targs ∧ (strict = true → c'.tyargs = c.tyargs)

namespace HLe
variable {strict : Bool} {h h' h'' : List TCell}

theorem refl : HLe strict h h := fun _ c hc => ⟨c, hc, rfl, rfl, rfl, rfl, rfl, fun _ => rfl⟩

theorem trans (a : HLe strict h h') (b : HLe strict h' h'') : HLe strict h h'' := by
  intro r c hc
  obtain ⟨c', hc', e1, e2, e3, e4, e5, e6⟩ := a r c hc
  obtain ⟨c'', hc'', f1, f2, f3, f4, f5, f6⟩ := b r c' hc'
  exact ⟨c'', hc'', f1.trans e1, f2.trans e2, f3.trans e3, f4.trans e4, f5.trans e5, fun hs => (f6 hs).trans (e6 hs)⟩

theorem append (c : TCell) : HLe strict h (h ++ [c]) := by
  intro r d hd
  have : r < h.length := (List.getElem?_eq_some_iff.1 hd).1
  exact ⟨d, by rw [List.getElem?_append_left this]; exact hd, rfl, rfl, rfl, rfl, rfl, fun _ => rfl⟩

end HLe

theorem heap_modify (h : List TCell) (r r' : TPtr) (es : List Text) :
    (h.modify r fun c => { c with tyargs := es })[r']? = (h[r']?).map fun c => if r' = r then { c with tyargs := es } else c := by
  rw [List.getElem?_modify]
  by_cases e : r = r'
  · subst e; simp
  · simp only [e, if_false, Ne.symm e]
    cases h[r']? <;> rfl

/-! ## The invariant -/

section inv
variable (strict : Bool) {W : TSchema} {imports : String → List String} (P : TPlan W imports) (s0 : TSt)
  (D : String → Text → Prop)

/-- The types that instances stand for. -/
abbrev Origins := String → Text → Option Ty

/-- Reference `r`, not in `av`, stands for `t` in package `p`: it is `t`, or an instance made for `t`. -/
def FRep (av : List TPtr) (p : String) (h : List TCell) (orig : Origins) (r : TPtr) (t : Ty) : Prop :=
  r ∉ av ∧ ∃ c : TCell, h[r]? = some c ∧ c.targs = [] ∧
    (t = .mk c.builtin c.pkg c.name c.bits [] ∨ (c.builtin = false ∧ c.pkg = p ∧ t.args ≠ [] ∧ orig p c.name = some t))

/-- The part `y` stands for `x` with `f` applied to its type. -/
def FPart (av : List TPtr) (p : String) (h : List TCell) (orig : Origins) (f : Ty → Ty) (x : TPart) (y : Text × TPtr) : Prop :=
  x.name = y.1 ∧ FRep av p h orig y.2 (f x.ty) ∧ (strict = true → ∃ c : TCell, h[y.2]? = some c ∧ c.tyargs = x.tyargs)

abbrev FParts (av : List TPtr) (p : String) (h : List TCell) (orig : Origins) (f : Ty → Ty) :=
  List.Forall₂ (FPart strict av p h orig f)

/-- The state of a run: the references in `av` are made but not used yet, `orig` tells what the instances stand for, and the
declarations `D` have been visited. -/
structure TInv (av : List TPtr) (s : TSt) (orig : Origins) : Prop where
  heap : HLe strict s0.heap s.heap
  avlo : ∀ a ∈ av, s0.heap.length ≤ a
  avhi : ∀ a ∈ av, a < s.heap.length
  kinds : ∀ {p n d}, W p n = some d → (s.kinds p n = some d.kind) ∨ (d.kind = .inst ∧ (orig p n).isSome = true)
  kindsOnly : ∀ {p n k}, s.kinds p n = some k → (∃ d, W p n = some d) ∨ (orig p n).isSome = true
  declsOnly : ∀ {k p n e}, s.decls k p n = some e → (∃ d, W p n = some d ∧ d.kind = k) ∨
    ∃ t d, orig p n = some t ∧ W t.pkg t.name = some d ∧ d.kind = k
  tmpl : ∀ {p n d}, W p n = some d → d.tparams ≠ [] → s.decls d.kind p n = s0.decls d.kind p n
  plain : ∀ {p n d}, W p n = some d → d.tparams = [] → ∃ e0 e, s0.decls d.kind p n = some e0 ∧ s.decls d.kind p n = some e ∧
    e.tparams = [] ∧ e.params = e0.params ∧ e.funcs = e0.funcs ∧
    ((¬ D p n ∧ e.fields = e0.fields) ∨ (FParts strict av p s.heap orig (fun t => t) d.fields e.fields ∧
      (d.kind = .inst → ∀ x ∈ d.fields, x.ty.args ≠ [] → orig p n = some x.ty)))
  made : ∀ {p n t}, orig p n = some t → P.U p t ∧ P.Nm p t n ∧ ∃ d e, W t.pkg t.name = some d ∧ s.kinds p n = some d.kind ∧
    s.decls d.kind p n = some e ∧ e.tparams = [] ∧
    FParts strict av p s.heap orig (Ty.subst (d.sigma t.args)) d.fields e.fields ∧
    FParts strict av p s.heap orig (Ty.subst (d.sigma t.args)) d.params e.params ∧
    FParts strict av p s.heap orig (Ty.subst (d.sigma t.args)) d.funcs e.funcs

/-- More instances. -/
def OLe (o o' : Origins) : Prop := ∀ p n t, o p n = some t → o' p n = some t

variable {strict P s0 D}

theorem FRep.mono {av : List TPtr} {p : String} {h h' : List TCell} {o o' : Origins} {r : TPtr} {t : Ty} (hh : HLe strict h h')
    (ho : OLe o o') (hr : FRep av p h o r t) : FRep av p h' o' r t := by
  obtain ⟨ha, c, hc, ht, hk⟩ := hr
  obtain ⟨c', hc', e1, e2, e3, e4, e5, -⟩ := hh r c hc
  refine ⟨ha, c', hc', e5.trans ht, ?_⟩
  rw [e1, e2, e3, e4]
  rcases hk with hk | ⟨h1, h2, h3, h4⟩
  · exact .inl hk
  · exact .inr ⟨h1, h2, h3, ho _ _ _ h4⟩

theorem FPart.mono {av : List TPtr} {p : String} {h h' : List TCell} {o o' : Origins} {f : Ty → Ty} {x : TPart} {y : Text × TPtr}
    (hh : HLe strict h h') (ho : OLe o o') (hr : FPart strict av p h o f x y) : FPart strict av p h' o' f x y := by
  refine ⟨hr.1, hr.2.1.mono hh ho, fun hs => ?_⟩
  obtain ⟨c, hc, e⟩ := hr.2.2 hs
  obtain ⟨c', hc', -, -, -, -, -, e6⟩ := hh _ c hc
  exact ⟨c', hc', (e6 hs).trans e⟩

theorem FParts.mono {av : List TPtr} {p : String} {h h' : List TCell} {o o' : Origins} {f : Ty → Ty} {xs : List TPart}
    {ys : List (Text × TPtr)} (hh : HLe strict h h') (ho : OLe o o') (hr : FParts strict av p h o f xs ys) :
    FParts strict av p h' o' f xs ys := List.Forall₂.imp (fun _ _ => FPart.mono hh ho) hr

theorem OLe.refl {o : Origins} : OLe o o := fun _ _ _ h => h
theorem OLe.trans {o o' o'' : Origins} (a : OLe o o') (b : OLe o' o'') : OLe o o'' := fun p n t h => b p n t (a p n t h)

theorem OLe.isSome {o o' : Origins} (a : OLe o o') {p : String} {n : Text} (h : (o p n).isSome = true) :
    (o' p n).isSome = true := by
  obtain ⟨t, ht⟩ := Option.isSome_iff_exists.1 h
  exact Option.isSome_iff_exists.2 ⟨t, a _ _ _ ht⟩

/-- A larger heap with the same declarations; new references may be set aside. -/
theorem TInv.grow {av : List TPtr} {s : TSt} {orig : Origins} (hi : TInv strict P s0 D av s orig) (h' : List TCell)
    (hh : HLe strict s.heap h') (hlen : s.heap.length ≤ h'.length) : TInv strict P s0 D av { s with heap := h' } orig where
  heap := hi.heap.trans hh
  avlo := hi.avlo
  avhi := fun a ha => Nat.lt_of_lt_of_le (hi.avhi a ha) hlen
  kinds := hi.kinds
  kindsOnly := hi.kindsOnly
  declsOnly := hi.declsOnly
  tmpl := hi.tmpl
  plain := fun hd ht => by
    obtain ⟨e0, e, a1, a2, a3, a4, a5, a6⟩ := hi.plain hd ht
    exact ⟨e0, e, a1, a2, a3, a4, a5, a6.imp id (And.imp (FParts.mono hh OLe.refl) id)⟩
  made := fun ho => by
    obtain ⟨hu, hn, d, e, a1, a2, a3, a4, a5, a6, a7⟩ := hi.made ho
    exact ⟨hu, hn, d, e, a1, a2, a3, a4, a5.mono hh OLe.refl, a6.mono hh OLe.refl, a7.mono hh OLe.refl⟩

theorem FRep.lt {av : List TPtr} {p : String} {h : List TCell} {o : Origins} {r : TPtr} {t : Ty} (hr : FRep av p h o r t) :
    r < h.length := by
  obtain ⟨-, c, hc, -⟩ := hr
  exact (List.getElem?_eq_some_iff.1 hc).1

theorem FRep.avoid {av : List TPtr} {p : String} {h : List TCell} {o : Origins} {r a : TPtr} {t : Ty} (hr : FRep av p h o r t)
    (ha : h.length ≤ a) : FRep (a :: av) p h o r t := by
  have hl := hr.lt
  refine ⟨?_, hr.2⟩
  simp only [List.mem_cons, not_or]
  exact ⟨fun e => by subst e; exact absurd hl (Nat.not_lt.2 ha), hr.1⟩

theorem FRep.weaken {av : List TPtr} {p : String} {h : List TCell} {o : Origins} {r a : TPtr} {t : Ty}
    (hr : FRep (a :: av) p h o r t) : FRep av p h o r t :=
  ⟨fun h => hr.1 (List.mem_cons_of_mem _ h), hr.2⟩

theorem FParts.avoid {av : List TPtr} {p : String} {h : List TCell} {o : Origins} {f : Ty → Ty} {xs : List TPart}
    {ys : List (Text × TPtr)} {a : TPtr} (hr : FParts strict av p h o f xs ys) (ha : h.length ≤ a) :
    FParts strict (a :: av) p h o f xs ys :=
  List.Forall₂.imp (fun _ _ (hp : FPart strict av p h o f _ _) => ⟨hp.1, hp.2.1.avoid ha, hp.2.2⟩) hr

/-- A new reference set aside. -/
theorem TInv.alloc {av : List TPtr} {s : TSt} {orig : Origins} (hi : TInv strict P s0 D av s orig) (c : TCell) :
    TInv strict P s0 D (s.heap.length :: av) { s with heap := s.heap ++ [c] } orig := by
  have hg := hi.grow (s.heap ++ [c]) (HLe.append c) (by simp)
  have hh : HLe strict s.heap (s.heap ++ [c]) := HLe.append c
  have h0 : s0.heap.length ≤ s.heap.length := by
    by_contra hlt
    have hlt := Nat.lt_of_not_le hlt
    obtain ⟨c', hc', -⟩ := hi.heap s.heap.length s0.heap[s.heap.length] (List.getElem?_eq_getElem hlt)
    have := (List.getElem?_eq_some_iff.1 hc').1
    omega
  exact {
    heap := hg.heap
    avlo := by
      intro a ha
      rcases List.mem_cons.1 ha with rfl | ha
      · exact h0
      · exact hi.avlo a ha
    avhi := by
      intro a ha
      rcases List.mem_cons.1 ha with rfl | ha
      · simp
      · exact hg.avhi a ha
    kinds := hi.kinds
    kindsOnly := hi.kindsOnly
    declsOnly := hi.declsOnly
    tmpl := hi.tmpl
    plain := fun hd ht => by
      obtain ⟨e0, e, a1, a2, a3, a4, a5, a6⟩ := hi.plain hd ht
      exact ⟨e0, e, a1, a2, a3, a4, a5, a6.imp id (And.imp (fun h => (h.avoid (Nat.le_refl _)).mono hh OLe.refl) id)⟩
    made := fun ho => by
      obtain ⟨hu, hn, d, e, a1, a2, a3, a4, a5, a6, a7⟩ := hi.made ho
      exact ⟨hu, hn, d, e, a1, a2, a3, a4, (a5.avoid (Nat.le_refl _)).mono hh OLe.refl, (a6.avoid (Nat.le_refl _)).mono hh OLe.refl,
        (a7.avoid (Nat.le_refl _)).mono hh OLe.refl⟩ }

theorem FPart.finish {av : List TPtr} {p : String} {h : List TCell} {o : Origins} {f : Ty → Ty} {x : TPart}
    {y : Text × TPtr} {a : TPtr} (es : List Text) (hr : FPart strict (a :: av) p h o f x y) :
    FPart strict av p (h.modify a fun c => { c with tyargs := es }) o f x y := by
  obtain ⟨h1, h2, h3⟩ := hr
  have hne : y.2 ≠ a := fun e => h2.1 (by simp [e])
  have hsame : (h.modify a fun c => { c with tyargs := es })[y.2]? = h[y.2]? := by
    rw [heap_modify]; simp [hne]
  refine ⟨h1, ?_, ?_⟩
  · obtain ⟨hn, c, hc, hk⟩ := h2.weaken
    exact ⟨hn, c, hsame.trans hc, hk⟩
  · intro hs
    obtain ⟨c, hc, e⟩ := h3 hs
    exact ⟨c, hsame.trans hc, e⟩

theorem FParts.finish {av : List TPtr} {p : String} {h : List TCell} {o : Origins} {f : Ty → Ty} {xs : List TPart}
    {ys : List (Text × TPtr)} {a : TPtr} (es : List Text) (hr : FParts strict (a :: av) p h o f xs ys) :
    FParts strict av p (h.modify a fun c => { c with tyargs := es }) o f xs ys :=
  List.Forall₂.imp (fun _ _ => FPart.finish es) hr

/-- The type arguments of a reference set aside are filled in. -/
theorem TInv.finish {av : List TPtr} {s : TSt} {orig : Origins} {a : TPtr} (es : List Text)
    (hi : TInv strict P s0 D (a :: av) s orig) :
    TInv strict P s0 D av { s with heap := s.heap.modify a fun c => { c with tyargs := es } } orig where
  heap := by
    intro r c hc
    have hlt := (List.getElem?_eq_some_iff.1 hc).1
    have hne : r ≠ a := fun e => by
      have := hi.avlo a (by simp)
      subst e
      omega
    obtain ⟨c', hc', hk⟩ := hi.heap r c hc
    refine ⟨c', ?_, hk⟩
    rw [heap_modify]; simp [hne, hc']
  avlo := fun b hb => hi.avlo b (by simp [hb])
  avhi := fun b hb => by simpa using hi.avhi b (by simp [hb])
  kinds := hi.kinds
  kindsOnly := hi.kindsOnly
  declsOnly := hi.declsOnly
  tmpl := hi.tmpl
  plain := fun hd ht => by
    obtain ⟨e0, e, a1, a2, a3, a4, a5, a6⟩ := hi.plain hd ht
    exact ⟨e0, e, a1, a2, a3, a4, a5, a6.imp id (And.imp (fun h => FParts.finish es h) id)⟩
  made := fun ho => by
    obtain ⟨hu, hn, d, e, a1, a2, a3, a4, a5, a6, a7⟩ := hi.made ho
    exact ⟨hu, hn, d, e, a1, a2, a3, a4, a5.finish es, a6.finish es, a7.finish es⟩

theorem upd2 {β : Type} (f : String → Text → β) (p : String) (n : Text) (v : β) (p' : String) (n' : Text) :
    Function.update f p (Function.update (f p) n v) p' n' = if p' = p ∧ n' = n then v else f p' n' := by
  by_cases hp : p' = p
  · subst hp
    by_cases hn : n' = n
    · subst hn; simp
    · simp [hn]
  · simp [hp]

theorem upd3 {β : Type} (f : TKind → String → Text → β) (k : TKind) (p : String) (n : Text) (v : β) (k' : TKind) (p' : String)
    (n' : Text) :
    Function.update f k (Function.update (f k) p (Function.update (f k p) n v)) k' p' n' =
      if k' = k ∧ p' = p ∧ n' = n then v else f k' p' n' := by
  by_cases hk : k' = k
  · subst hk
    rw [Function.update_self, upd2]
    simp
  · simp [hk]

/-- A new instance is made known. -/
theorem TInv.register {av : List TPtr} {s : TSt} {orig : Origins} (hi : TInv strict P s0 D av s orig) {p : String} {t : Ty}
    {n : Text} {d : SDecl} {e : TDecl} (hu : P.U p t) (hn : P.Nm p t n) (hd : W t.pkg t.name = some d) (he : e.tparams = [])
    (hf : FParts strict av p s.heap orig (Ty.subst (d.sigma t.args)) d.fields e.fields)
    (hp : FParts strict av p s.heap orig (Ty.subst (d.sigma t.args)) d.params e.params)
    (hfn : FParts strict av p s.heap orig (Ty.subst (d.sigma t.args)) d.funcs e.funcs) :
    let orig' : Origins := Function.update orig p (Function.update (orig p) n (some t))
    OLe orig orig' ∧ TInv strict P s0 D av { s with
      kinds := Function.update s.kinds p (Function.update (s.kinds p) n (some d.kind))
      decls := Function.update s.decls d.kind (Function.update (s.decls d.kind) p
        (Function.update (s.decls d.kind p) n (some e))) } orig' := by
  intro orig'
  have ho' : ∀ p' n', orig' p' n' = if p' = p ∧ n' = n then some t else orig p' n' := fun p' n' => upd2 _ _ _ _ _ _
  have hle : OLe orig orig' := by
    intro p' n' t' h
    rw [ho']
    split
    · rename_i hc
      obtain ⟨rfl, rfl⟩ := hc
      have := hi.made h
      rw [P.inj hu this.1 hn this.2.1]
    · exact h
  have hk : d.kind = .struct ∨ d.kind = .choice := by
    obtain ⟨-, d', hd', hk', -⟩ := P.decl hu
    rw [hd] at hd'
    cases hd'
    exact hk'
  refine ⟨hle, ?_⟩
  exact {
    heap := hi.heap
    avlo := hi.avlo
    avhi := hi.avhi
    kinds := by
      intro p' n' d' hd'
      show Function.update s.kinds p _ p' n' = _ ∨ _
      rw [upd2, ho']
      by_cases hc : p' = p ∧ n' = n
      · obtain ⟨rfl, rfl⟩ := hc
        right
        exact ⟨(P.avoid hu hn hd').1, by simp⟩
      · simp only [hc, if_false]
        exact hi.kinds hd'
    kindsOnly := by
      intro p' n' k h
      rw [ho']
      have h : Function.update s.kinds p _ p' n' = some k := h
      rw [upd2] at h
      by_cases hc : p' = p ∧ n' = n
      · right; simp [hc]
      · simp only [hc, if_false] at h ⊢
        exact hi.kindsOnly h
    declsOnly := by
      intro k p' n' e' h
      have h : Function.update s.decls d.kind _ k p' n' = some e' := h
      rw [upd3] at h
      by_cases hc : k = d.kind ∧ p' = p ∧ n' = n
      · exact .inr ⟨t, d, by rw [ho', if_pos hc.2], hd, hc.1.symm⟩
      · rw [if_neg hc] at h
        exact (hi.declsOnly h).imp id fun ⟨t', d', h1, h2, h3⟩ => ⟨t', d', hle _ _ _ h1, h2, h3⟩
    tmpl := by
      intro p' n' d' hd' ht
      show Function.update s.decls d.kind _ d'.kind p' n' = _
      rw [upd3, if_neg]
      · exact hi.tmpl hd' ht
      · rintro ⟨-, rfl, rfl⟩
        exact ht (P.avoid hu hn hd').2.1
    plain := by
      intro p' n' d' hd' ht
      obtain ⟨e0, e', a1, a2, a3, a4, a5, a6⟩ := hi.plain hd' ht
      refine ⟨e0, e', a1, ?_, a3, a4, a5, a6.imp id (And.imp (FParts.mono HLe.refl hle) fun h hk x hx ha => hle _ _ _ (h hk x hx ha))⟩
      show Function.update s.decls d.kind _ d'.kind p' n' = _
      rw [upd3, if_neg]
      · exact a2
      · rintro ⟨hkk, rfl, rfl⟩
        have := (P.avoid hu hn hd').1
        rw [this] at hkk
        rcases hk with h | h <;> rw [h] at hkk <;> cases hkk
    made := by
      intro p' n' t' h
      rw [ho'] at h
      by_cases hc : p' = p ∧ n' = n
      · simp only [hc, and_self, if_true, Option.some.injEq] at h
        subst h
        obtain ⟨rfl, rfl⟩ := hc
        refine ⟨hu, hn, d, e, hd, ?_, ?_, he, hf.mono HLe.refl hle, hp.mono HLe.refl hle, hfn.mono HLe.refl hle⟩
        · show Function.update s.kinds p' _ p' n' = _
          rw [upd2]; simp
        · show Function.update s.decls d.kind _ d.kind p' n' = _
          rw [upd3]; simp
      · simp only [hc, if_false] at h
        obtain ⟨hu', hn', d', e', a1, a2, a3, a4, a5, a6, a7⟩ := hi.made h
        refine ⟨hu', hn', d', e', a1, ?_, ?_, a4, a5.mono HLe.refl hle, a6.mono HLe.refl hle, a7.mono HLe.refl hle⟩
        · show Function.update s.kinds p _ p' n' = _
          rw [upd2]; simp only [hc, if_false]; exact a2
        · show Function.update s.decls d.kind _ d'.kind p' n' = _
          rw [upd3, if_neg (fun h => hc h.2)]; exact a3 }

/-! ## Arguments -/

theorem Ty.eta (t : Ty) : t = .mk t.builtin t.pkg t.name t.bits t.args := by cases t; rfl

theorem Ty.substAll_eq (σ : Text → Option Ty) (as : List Ty) : Ty.substAll σ as = as.map (Ty.subst σ) := by
  induction as with
  | nil => rfl
  | cons a as ih => simp [Ty.substAll, ih]

theorem Ty.subst_args (σ : Text → Option Ty) (t : Ty) (h : t.args ≠ []) :
    t.subst σ = .mk t.builtin t.pkg t.name t.bits (t.args.map (Ty.subst σ)) := by
  cases t with
  | mk b p n w as =>
    cases as with
    | nil => exact absurd rfl h
    | cons a as => simp [Ty.subst, Ty.substAll_eq, Ty.builtin, Ty.pkg, Ty.name, Ty.bits, Ty.args]

mutual
theorem Ty.subst_closed (σ : Text → Option Ty) (ps : List Text) (hσ : ∀ n, n ∉ ps → σ n = none) :
    (t : Ty) → t.mentions ps = false → t.subst σ = t
  | .mk b p n w [], h => by
    simp only [Ty.mentions, Bool.and_eq_false_iff, Bool.not_eq_false', beq_eq_false_iff_ne, decide_eq_false_iff_not] at h
    simp only [Ty.subst]
    split
    · rename_i hb
      rcases h with (h | h) | h
      · simp [hb.1] at h
      · exact absurd hb.2 h
      · rw [hσ n h]; rfl
    · rfl
  | .mk b p n w (a :: as), h => by
    simp only [Ty.mentions, Bool.or_eq_false_iff] at h
    simp only [Ty.subst]
    rw [Ty.subst_closed σ ps hσ a h.1, Ty.substAll_closed σ ps hσ as h.2]
theorem Ty.substAll_closed (σ : Text → Option Ty) (ps : List Text) (hσ : ∀ n, n ∉ ps → σ n = none) :
    (ts : List Ty) → Ty.mentionsAny ps ts = false → Ty.substAll σ ts = ts
  | [], _ => rfl
  | a :: as, h => by
    simp only [Ty.mentionsAny, Bool.or_eq_false_iff] at h
    simp only [Ty.substAll]
    rw [Ty.subst_closed σ ps hσ a h.1, Ty.substAll_closed σ ps hσ as h.2]
end

variable (strict) in
/-- An instantiated argument. -/
def FArg (av : List TPtr) (p : String) (h : List TCell) (orig : Origins) (r : TPtr) (t : Ty) : Prop :=
  FRep av p h orig r t ∧ (strict = true → ∃ c : TCell, h[r]? = some c ∧ c.tyargs = [])

variable (strict s0) in
/-- An argument before instantiation: as written, or handed on by an outer template. -/
def ARep (av : List TPtr) (p : String) (h : List TCell) (orig : Origins) (r : TPtr) (t : Ty) : Prop :=
  (Spells s0.heap r t ∧ ∃ c : TCell, s0.heap[r]? = some c ∧ c.tyargs = []) ∨ FArg strict av p h orig r t

theorem FArg.mono {av : List TPtr} {p : String} {h h' : List TCell} {o o' : Origins} {r : TPtr} {t : Ty} (hh : HLe strict h h')
    (ho : OLe o o') (hr : FArg strict av p h o r t) : FArg strict av p h' o' r t := by
  refine ⟨hr.1.mono hh ho, fun hs => ?_⟩
  obtain ⟨c, hc, e⟩ := hr.2 hs
  obtain ⟨c', hc', -, -, -, -, -, e6⟩ := hh _ c hc
  exact ⟨c', hc', (e6 hs).trans e⟩

theorem ARep.mono {av : List TPtr} {p : String} {h h' : List TCell} {o o' : Origins} {r : TPtr} {t : Ty} (hh : HLe strict h h')
    (ho : OLe o o') (hr : ARep strict s0 av p h o r t) : ARep strict s0 av p h' o' r t :=
  hr.imp id (FArg.mono hh ho)

theorem Spells.inv {h : List TCell} {r : TPtr} {t : Ty} (hd : Spells h r t) : ∃ c : TCell, h[r]? = some c ∧
    c.builtin = t.builtin ∧ c.pkg = t.pkg ∧ c.name = t.name ∧ c.bits = t.bits ∧ SpellsArgs h c.targs t.args := by
  cases hd with
  | mk hc ha => exact ⟨_, hc, rfl, rfl, rfl, rfl, ha⟩

theorem SpellsArgs.args {av : List TPtr} {p : String} {h : List TCell} {o : Origins} :
    ∀ {rs : List TPtr} {ts : List Ty}, SpellsArgs s0.heap rs ts → List.Forall₂ (ARep strict s0 av p h o) rs ts
  | _, _, .nil => .nil
  | _, _, .cons hc he hd ht => .cons (.inl ⟨hd, _, hc, he⟩) ht.args

theorem SpellsArgs.nil_iff {h : List TCell} {rs : List TPtr} {ts : List Ty} (hd : SpellsArgs h rs ts) : rs = [] ↔ ts = [] := by
  cases hd <;> simp

variable (strict) in
/-- The map of template parameters, `tt`, has references that stand for the arguments `σ`. -/
def TTOk (av : List TPtr) (p : String) (h : List TCell) (orig : Origins) (ps : List Text) (tt : Text → Option TPtr)
    (σ : Text → Option Ty) : Prop :=
  ∀ n, (n ∉ ps → tt n = none ∧ σ n = none) ∧
    (n ∈ ps → ∃ r t, tt n = some r ∧ σ n = some t ∧ FArg strict av p h orig r t)

theorem TTOk.mono {av : List TPtr} {p : String} {h h' : List TCell} {o o' : Origins} {ps : List Text} {tt : Text → Option TPtr}
    {σ : Text → Option Ty} (hh : HLe strict h h') (ho : OLe o o') (ht : TTOk strict av p h o ps tt σ) :
    TTOk strict av p h' o' ps tt σ := fun n =>
  ⟨(ht n).1, fun hn => by
    obtain ⟨r, t, a, b, c⟩ := (ht n).2 hn
    exact ⟨r, t, a, b, c.mono hh ho⟩⟩

theorem foldl_update_notin (kvs : List (Text × TPtr)) (m : Text → Option TPtr) (n : Text) (hn : n ∉ kvs.map (·.1)) :
    kvs.foldl putType m n = m n := by
  induction kvs generalizing m with
  | nil => rfl
  | cons kv kvs ih =>
    simp only [List.map_cons, List.mem_cons, not_or] at hn
    rw [List.foldl_cons, ih _ hn.2, putType, Function.update_of_ne hn.1]

theorem templateTypes_ok {Q : TPtr → Ty → Prop} : ∀ (ps : List Text) (rs : List TPtr) (ts : List Ty) (m : Text → Option TPtr),
    ps.Nodup → ps.length = ts.length → List.Forall₂ Q rs ts → ∀ n,
    (n ∉ ps → (ps.zip rs).foldl putType m n = m n ∧ (ps.zip ts).lookup n = none) ∧
    (n ∈ ps → ∃ r t, (ps.zip rs).foldl putType m n = some r ∧
      (ps.zip ts).lookup n = some t ∧ Q r t)
  | [], _, _, m, _, _, _, n => by simp
  | q :: ps, _, _, m, hnd, hl, .nil, n => by simp at hl
  | q :: ps, r :: rs, t :: ts, m, hnd, hl, .cons hq hqs, n => by
    have hnd' := List.nodup_cons.1 hnd
    have ih := templateTypes_ok ps rs ts (putType m (q, r)) hnd'.2 (by simpa using hl) hqs n
    simp only [List.zip_cons_cons, List.foldl_cons, List.lookup_cons, List.mem_cons]
    constructor
    · intro hn
      rw [not_or] at hn
      obtain ⟨h1, h2⟩ := ih.1 hn.2
      have hb : (n == q) = false := beq_eq_false_iff_ne.2 hn.1
      rw [h1, putType, Function.update_of_ne hn.1, hb]
      exact ⟨rfl, h2⟩
    · intro hn
      by_cases hnq : n = q
      · subst hnq
        refine ⟨r, t, ?_, by simp, hq⟩
        rw [(ih.1 hnd'.1).1, putType, Function.update_self]
      · obtain ⟨r', t', h1, h2, h3⟩ := ih.2 (hn.resolve_left hnq)
        have hb : (n == q) = false := beq_eq_false_iff_ne.2 hnq
        exact ⟨r', t', h1, by rw [hb]; exact h2, h3⟩

/-! ## One step -/

variable (strict P s0 D) in
/-- What instantiating the type `t` in package `p` achieves. -/
def InstPost (av : List TPtr) (p : String) (s : TSt) (orig : Origins) (es : List Text)
    (nm : Option Text) (t : Ty) (r : TPtr) (s' : TSt) : Prop :=
  ∃ orig', HLe strict s.heap s'.heap ∧ OLe orig orig' ∧ TInv strict P s0 D av s' orig' ∧ FRep av p s'.heap orig' r t ∧
    (strict = true → ∃ c : TCell, s'.heap[r]? = some c ∧ c.tyargs = es) ∧
    (∀ n, nm = some n → t.args ≠ [] → orig' p n = some t)

variable (strict P s0 D) in
/-- `inst` instantiates the types that satisfy `A` in package `p`. -/
def InstOk (tot : Bool) (A : Ty → Prop) (p : String) (inst : Inst) : Prop :=
  ∀ {av : List TPtr} {s : TSt} {orig : Origins} {tr : TPtr} {targs : List TPtr} {nm : Option Text} {t : Ty} {c : TCell},
    TInv strict P s0 D av s orig → P.U p t → A t → s.heap[tr]? = some c → c.name = t.name →
    List.Forall₂ (ARep strict s0 av p s.heap orig) targs t.args → (∀ n, nm = some n → P.Nm p t n) →
    Run tot (inst tr targs nm) s (InstPost strict P s0 D av p s orig c.tyargs nm t)

/-- `inst` gives a reference back that has no arguments. -/
def InstNop (inst : Inst) : Prop := ∀ tr nm, inst tr [] nm = pure tr

theorem TInv.len {av : List TPtr} {s : TSt} {orig : Origins} (hi : TInv strict P s0 D av s orig) :
    s0.heap.length ≤ s.heap.length := by
  by_contra hlt
  have hlt := Nat.lt_of_not_le hlt
  obtain ⟨c', hc', -⟩ := hi.heap s.heap.length s0.heap[s.heap.length] (List.getElem?_eq_getElem hlt)
  have := (List.getElem?_eq_some_iff.1 hc').1
  omega

theorem TInv.notin {av : List TPtr} {s : TSt} {orig : Origins} (hi : TInv strict P s0 D av s orig) {r : TPtr} {c : TCell}
    (hc : s0.heap[r]? = some c) : r ∉ av := fun hr =>
  absurd (List.getElem?_eq_some_iff.1 hc).1 (Nat.not_lt.2 (hi.avlo r hr))

/-- Instantiating a reference of the source. -/
theorem inst_source {tot : Bool} {A : Ty → Prop} {p : String} {inst : Inst} (hok : InstOk strict P s0 D tot A p inst)
    (hnop : InstNop inst) {av : List TPtr} {s : TSt} {orig : Origins} {r : TPtr} {t : Ty} {c0 c : TCell} {nm : Option Text}
    (hi : TInv strict P s0 D av s orig) (h0 : s0.heap[r]? = some c0) (hd : Spells s0.heap r t) (hc : s.heap[r]? = some c)
    (hu : t.args ≠ [] → P.U p t ∧ A t ∧ ∀ n, nm = some n → P.Nm p t n) :
    Run tot (inst r c.targs nm) s (InstPost strict P s0 D av p s orig c0.tyargs nm t) := by
  obtain ⟨c0', hc0', e1, e2, e3, e4, hargs⟩ := hd.inv
  rw [h0] at hc0'
  cases hc0'
  obtain ⟨c', hc', f1, f2, f3, f4, f5, f6⟩ := hi.heap r c0 h0
  rw [hc] at hc'
  cases hc'
  by_cases ha : t.args = []
  · have hta : c.targs = [] := by rw [f5]; exact hargs.nil_iff.2 ha
    rw [hta, hnop]
    refine Run.pure ⟨orig, HLe.refl, OLe.refl, hi, ⟨hi.notin h0, c, hc, hta, .inl ?_⟩, fun hs => ⟨c, hc, f6 hs⟩,
      fun _ _ h => absurd ha h⟩
    rw [f1, f2, f3, f4, e1, e2, e3, e4, ← ha]
    exact t.eta
  · obtain ⟨h1, h2, h3⟩ := hu ha
    rw [f5]
    refine (hok hi h1 h2 hc (f3.trans e3) hargs.args h3).mono ?_
    rintro r' s' ⟨orig', a1, a2, a3, a4, a5, a6⟩
    refine ⟨orig', a1, a2, a3, a4, fun hs => ?_, a6⟩
    obtain ⟨c', hc', e⟩ := a5 hs
    exact ⟨c', hc', e.trans (f6 hs)⟩

/-- Instantiating the arguments. -/
theorem instArgs_ok {tot : Bool} {A : Ty → Prop} {p : String} {inst : Inst} (hok : InstOk strict P s0 D tot A p inst)
    (hnop : InstNop inst) {av : List TPtr} : ∀ {targs : List TPtr} {ts : List Ty} {s : TSt} {orig : Origins},
    TInv strict P s0 D av s orig → List.Forall₂ (ARep strict s0 av p s.heap orig) targs ts →
    (∀ a ∈ ts, a.args ≠ [] → P.U p a ∧ A a) →
    Run tot (instArgs inst targs) s fun rs s' => ∃ orig', HLe strict s.heap s'.heap ∧ OLe orig orig' ∧
      TInv strict P s0 D av s' orig' ∧ List.Forall₂ (FArg strict av p s'.heap orig') rs ts
  | _, _, s, orig, hi, .nil, _ => Run.pure ⟨orig, HLe.refl, OLe.refl, hi, .nil⟩
  | _, _, s, orig, hi, .cons (a := ta) (b := t) (l₁ := tas) (l₂ := ts) hta htas, hu => by
    unfold instArgs
    have key : ∃ c : TCell, s.heap[ta]? = some c ∧ Run tot (inst ta c.targs none) s fun r s' => ∃ orig',
        HLe strict s.heap s'.heap ∧ OLe orig orig' ∧ TInv strict P s0 D av s' orig' ∧ FArg strict av p s'.heap orig' r t := by
      rcases hta with ⟨hd, c0, h0, he⟩ | hf
      · obtain ⟨c, hc, -⟩ := hi.heap ta c0 h0
        refine ⟨c, hc, (inst_source hok hnop hi h0 hd hc fun ha => ?_).mono ?_⟩
        · obtain ⟨u1, u2⟩ := hu t (by simp) ha
          exact ⟨u1, u2, by simp⟩
        · rintro r s' ⟨orig', a1, a2, a3, a4, a5, -⟩
          exact ⟨orig', a1, a2, a3, a4, fun hs => by rw [← he]; exact a5 hs⟩
      · obtain ⟨c, hc, hta, hk⟩ := hf.1.2
        refine ⟨c, hc, ?_⟩
        rw [hta, hnop]
        exact Run.pure ⟨orig, HLe.refl, OLe.refl, hi, hf⟩
    obtain ⟨c, hc, hrun⟩ := key
    refine Run.bind (Run.cell hc (Run.bind (hrun.mono ?_)))
    rintro r s1 ⟨orig1, a1, a2, a3, a4⟩
    have ih := instArgs_ok hok hnop (av := av) a3 (htas.imp fun _ _ h => ARep.mono a1 a2 h)
      fun a ha => hu a (by simp [ha])
    refine Run.bind (ih.mono ?_)
    rintro rs s2 ⟨orig2, b1, b2, b3, b4⟩
    exact Run.pure ⟨orig2, a1.trans b1, a2.trans b2, b3, .cons (a4.mono b1 b2) b4⟩

end inv

end Verif
