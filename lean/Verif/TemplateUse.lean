import Verif.TemplateRun

/-!
# Schemas with templates

Which template types a schema uses, under which names their instances go, and the conditions under which instantiation
is substitution.  `parseSchema` makes the model of a schema, `standsForB` decides `StandsFor`.
-/

namespace Verif

/-! ## The types in use -/

/-- The template types with arguments that package `p` uses: those its declarations mention, their arguments, and the fields
of the templates with the arguments put in. -/
inductive Used (W : TSchema) : String → Ty → Prop
  | root {p : String} {n : Text} {d : SDecl} {x : TPart} : W p n = some d → d.tparams = [] → x ∈ d.fields → x.ty.args ≠ [] →
      Used W p x.ty
  | arg {p : String} {t a : Ty} : Used W p t → a ∈ t.args → a.args ≠ [] → Used W p a
  | field {p : String} {t : Ty} {d : SDecl} {x : TPart} : Used W p t → W t.pkg t.name = some d → x ∈ d.fields →
      x.ty.args ≠ [] → Used W p (x.ty.subst (d.sigma t.args))

mutual
/-- The names instances of a type can get in package `p`: the name of the template followed by the names of the arguments,
where an argument goes by its own name or by the name of its instance; or the name of an `instantiate` declaration. -/
def NameOf (W : TSchema) (p : String) : Ty → Text → Prop
  | .mk b q m w as, n => (∃ ns, ArgNames W p as ns ∧ n = genName m ns) ∨
      ∃ d, W p n = some d ∧ d.kind = .inst ∧ d.tparams = [] ∧ d.fields.map (·.ty) = [.mk b q m w as]
def ArgNames (W : TSchema) (p : String) : List Ty → List Text → Prop
  | [], [] => True
  | a :: as, n :: ns => (n = a.name ∨ (a.args ≠ [] ∧ NameOf W p a n)) ∧ ArgNames W p as ns
  | _, _ => False
end

theorem argNames_iff {W : TSchema} {p : String} : ∀ {as : List Ty} {ns : List Text},
    ArgNames W p as ns ↔ List.Forall₂ (fun a n => n = Ty.name a ∨ (a.args ≠ [] ∧ NameOf W p a n)) as ns
  | [], [] => by simp [ArgNames]
  | a :: as, n :: ns => by
    simp only [ArgNames, List.forall₂_cons]
    rw [argNames_iff]
  | [], _ :: _ => by simp [ArgNames]
  | _ :: _, [] => by simp [ArgNames]

/-- The conditions under which instantiation is substitution. -/
structure TemplatesOk (W : TSchema) (imports : String → List String) : Prop where
  /-- types with arguments are struct or choice templates with that many parameters -/
  decl : ∀ {p t}, Used W p t → ∃ d, W t.pkg t.name = some d ∧ (d.kind = .struct ∨ d.kind = .choice) ∧
    d.tparams.length = t.args.length ∧ d.tparams.Nodup
  /-- the plain name of the template leads to it in every package that uses it -/
  seen : ∀ {p t}, Used W p t → seenIn W t.name (p :: imports p) = some t.pkg
  /-- the arguments of a field of a template are parameters or do not mention parameters -/
  flat : ∀ {p t d x a}, Used W p t → W t.pkg t.name = some d → x ∈ d.fields → a ∈ x.ty.args →
    (a.name ∈ d.tparams → a.isParam a.name) ∧ (a.name ∉ d.tparams → a.mentions d.tparams = false)
  /-- parameters do not have the name of a builtin type -/
  builtin : ∀ {p t d x}, Used W p t → W t.pkg t.name = some d → x ∈ d.fields ∨ x ∈ d.params ∨ x ∈ d.funcs →
    x.ty.builtin = true → x.ty.name ∉ d.tparams
  /-- parameters and function results have no template arguments -/
  simple : ∀ {q n d x}, W q n = some d → x ∈ d.params ∨ x ∈ d.funcs → x.ty.args = []
  /-- members of unions have none -/
  unions : ∀ {q n d x}, W q n = some d → d.kind = .union ∨ d.kind = .other → x ∈ d.fields → x.ty.args = []
  /-- an `instantiate` declaration names one type -/
  insts : ∀ {p n d}, W p n = some d → d.kind = .inst → d.tparams = [] ∧ ∃ x, d.fields = [x]
  /-- different types get different names -/
  inj : ∀ {p t t' n}, Used W p t → Used W p t' → NameOf W p t n → NameOf W p t' n → t = t'
  /-- which are not names of declarations, except of the `instantiate` declaration of that type -/
  avoid : ∀ {p t n d}, Used W p t → NameOf W p t n → W p n = some d → d.kind = .inst ∧ d.fields.map (·.ty) = [t]
  /-- nor of templates in use -/
  hide : ∀ {p t n p' t'}, Used W p t → NameOf W p t n → Used W p' t' → n ≠ t'.name

/-- Types in use have arguments. -/
theorem Used.args_ne {W : TSchema} {p : String} {t : Ty} (h : Used W p t) : t.args ≠ [] := by
  cases h with
  | root _ _ _ h => exact h
  | arg _ _ h => exact h
  | field _ _ _ h =>
    rw [Ty.subst_args _ _ h]
    simpa [Ty.args] using h

/-- The plan of a schema. -/
def TemplatesOk.plan {W : TSchema} {imports : String → List String} (h : TemplatesOk W imports) : TPlan W imports where
  U := Used W
  Nm p t n := t.args ≠ [] ∧ NameOf W p t n
  decl hu := ⟨hu.args_ne, h.decl hu⟩
  seen := h.seen
  args := .arg
  fields := .field
  flat := h.flat
  builtin := h.builtin
  simple := h.simple
  unions := h.unions
  roots := by
    intro p n d x hd ht hx ha
    refine ⟨.root hd ht hx ha, fun hk => ⟨ha, ?_⟩⟩
    obtain ⟨-, y, hy⟩ := h.insts hd hk
    rw [hy, List.mem_singleton] at hx
    subst hx
    rw [x.ty.eta, NameOf]
    refine .inr ⟨d, hd, hk, ht, ?_⟩
    rw [hy, ← x.ty.eta]
    rfl
  names := by
    intro p t ns hu hns
    refine ⟨hu.args_ne, ?_⟩
    rw [t.eta, NameOf]
    exact .inl ⟨ns, argNames_iff.2 hns, rfl⟩
  inj hu hu' hn hn' := h.inj hu hu' hn.2 hn'.2
  avoid := by
    intro p t n d hu hn hd
    obtain ⟨h1, h2⟩ := h.avoid hu hn.2 hd
    exact ⟨h1, (h.insts hd h1).1, h2⟩
  hide hu hn hu' := h.hide hu hn.2 hu'

/-- The nesting of instantiations is bounded by `n`: `ρ` gets smaller from a type in use to its arguments and to the fields of
its template. -/
structure Ranked (W : TSchema) (ρ : String → Ty → Nat) (n : Nat) : Prop where
  below : ∀ {p t}, Used W p t → ρ p t < n
  args : ∀ {p t a}, Used W p t → a ∈ t.args → a.args ≠ [] → ρ p a < ρ p t
  fields : ∀ {p t d x}, Used W p t → W t.pkg t.name = some d → x ∈ d.fields → x.ty.args ≠ [] →
    ρ p (x.ty.subst (d.sigma t.args)) < ρ p t

/-- No part of a template whose type is a template parameter has type arguments. -/
def BareParams (W : TSchema) : Prop :=
  ∀ {p t d x}, Used W p t → W t.pkg t.name = some d → x ∈ d.fields ∨ x ∈ d.params ∨ x ∈ d.funcs → x.ty.name ∈ d.tparams →
    x.ty.isParam x.ty.name → x.tyargs = []

/-! ## The model of a schema -/

mutual
/-- Every type of the text gets its own reference. -/
def allocTy : Ty → List Text → List TCell → List TCell × TPtr
  | .mk b p n w as, es, h =>
    let g := allocTys as h
    (g.1 ++ [⟨b, p, n, w, g.2, es⟩], g.1.length)
def allocTys : List Ty → List TCell → List TCell × List TPtr
  | [], h => (h, [])
  | a :: as, h =>
    let g := allocTy a [] h
    let k := allocTys as g.1
    (k.1, g.2 :: k.2)
end

def allocParts : List TPart → List TCell → List TCell × List (Text × TPtr)
  | [], h => (h, [])
  | x :: xs, h =>
    let g := allocTy x.ty x.tyargs h
    let k := allocParts xs g.1
    (k.1, (x.name, g.2) :: k.2)

def allocDecl (d : SDecl) (h : List TCell) : List TCell × TDecl :=
  let f := allocParts d.fields h
  let p := allocParts d.params f.1
  let g := allocParts d.funcs p.1
  (g.1, ⟨d.tparams, f.2, p.2, g.2⟩)

/-- The declarations of a schema. -/
abbrev SText := List ((String × Text) × SDecl)

def allocDecls : SText → List TCell → List TCell × List ((String × Text) × TKind × TDecl)
  | [], h => (h, [])
  | (k, d) :: ds, h =>
    let g := allocDecl d h
    let r := allocDecls ds g.1
    (r.1, (k, d.kind, g.2) :: r.2)

/-- The schema with these declarations. -/
def schemaOf (l : SText) : TSchema := fun p n => l.lookup (p, n)

/-- The model of the schema with these declarations. -/
def parseSchema (l : SText) : TSt :=
  let g := allocDecls l []
  { heap := g.1
    kinds := fun p n => (g.2.lookup (p, n)).map (·.1)
    decls := fun k p n => (g.2.lookup (p, n)).bind fun kd => if kd.1 = k then some kd.2 else none }

theorem getElem?_append_some {h : List TCell} {r : TPtr} {c : TCell} (g : List TCell) (hc : h[r]? = some c) :
    (h ++ g)[r]? = some c := by
  rw [List.getElem?_append_left (List.getElem?_eq_some_iff.1 hc).1]
  exact hc

mutual
theorem Spells.append {h : List TCell} (g : List TCell) {r : TPtr} {t : Ty} : Spells h r t → Spells (h ++ g) r t
  | .mk hc ha => .mk (getElem?_append_some g hc) (ha.append g)
theorem SpellsArgs.append {h : List TCell} (g : List TCell) {rs : List TPtr} {ts : List Ty} :
    SpellsArgs h rs ts → SpellsArgs (h ++ g) rs ts
  | .nil => .nil
  | .cons hc he hd ht => .cons (getElem?_append_some g hc) he (hd.append g) (ht.append g)
end

mutual
theorem allocTy_ok : (t : Ty) → (es : List Text) → (h : List TCell) → (∃ g, (allocTy t es h).1 = h ++ g) ∧
    Spells (allocTy t es h).1 (allocTy t es h).2 t ∧
    ∃ c : TCell, (allocTy t es h).1[(allocTy t es h).2]? = some c ∧ c.tyargs = es
  | .mk b p n w as, es, h => by
    obtain ⟨⟨g, hg⟩, ha⟩ := allocTys_ok as h
    have hc : ((allocTys as h).1 ++ [(⟨b, p, n, w, (allocTys as h).2, es⟩ : TCell)])[(allocTys as h).1.length]? =
        some ⟨b, p, n, w, (allocTys as h).2, es⟩ := by simp
    refine ⟨⟨g ++ [⟨b, p, n, w, (allocTys as h).2, es⟩], ?_⟩, ?_, ⟨_, hc, rfl⟩⟩
    · simp only [allocTy]; rw [hg, List.append_assoc]
    · exact .mk (c := ⟨b, p, n, w, (allocTys as h).2, es⟩) hc (ha.append _)
theorem allocTys_ok : (ts : List Ty) → (h : List TCell) → (∃ g, (allocTys ts h).1 = h ++ g) ∧
    SpellsArgs (allocTys ts h).1 (allocTys ts h).2 ts
  | [], h => ⟨⟨[], by simp [allocTys]⟩, .nil⟩
  | a :: as, h => by
    obtain ⟨⟨g, hg⟩, hd, c, hc, he⟩ := allocTy_ok a [] h
    obtain ⟨⟨k, hk⟩, ha⟩ := allocTys_ok as (allocTy a [] h).1
    refine ⟨⟨g ++ k, ?_⟩, ?_⟩
    · simp only [allocTys]; rw [hk, hg, List.append_assoc]
    · refine .cons (c := c) ?_ he ?_ ha
      · simp only [allocTys]; rw [hk]; exact getElem?_append_some k hc
      · simp only [allocTys]; rw [hk]; exact hd.append k
end

theorem PartsSpell.append {h : List TCell} (g : List TCell) {xs : List TPart} {ys : List (Text × TPtr)}
    (hp : PartsSpell h xs ys) : PartsSpell (h ++ g) xs ys := by
  refine List.Forall₂.imp ?_ hp
  rintro x y ⟨h1, h2, c, hc, he⟩
  exact ⟨h1, h2.append g, c, getElem?_append_some g hc, he⟩

theorem allocParts_ok : (xs : List TPart) → (h : List TCell) → (∃ g, (allocParts xs h).1 = h ++ g) ∧
    PartsSpell (allocParts xs h).1 xs (allocParts xs h).2
  | [], h => ⟨⟨[], by simp [allocParts]⟩, .nil⟩
  | x :: xs, h => by
    obtain ⟨⟨g, hg⟩, hd, c, hc, he⟩ := allocTy_ok x.ty x.tyargs h
    obtain ⟨⟨k, hk⟩, ha⟩ := allocParts_ok xs (allocTy x.ty x.tyargs h).1
    refine ⟨⟨g ++ k, ?_⟩, .cons ⟨rfl, ?_, c, ?_, he⟩ ha⟩
    · simp only [allocParts]; rw [hk, hg, List.append_assoc]
    · simp only [allocParts]; rw [hk]; exact hd.append k
    · simp only [allocParts]; rw [hk]; exact getElem?_append_some k hc

/-- The declaration `e` is read from `d`. -/
def DeclSpells (h : List TCell) (d : SDecl) (e : TDecl) : Prop :=
  e.tparams = d.tparams ∧ PartsSpell h d.fields e.fields ∧ PartsSpell h d.params e.params ∧ PartsSpell h d.funcs e.funcs

theorem DeclSpells.append {h : List TCell} (g : List TCell) {d : SDecl} {e : TDecl} (hd : DeclSpells h d e) :
    DeclSpells (h ++ g) d e := ⟨hd.1, hd.2.1.append g, hd.2.2.1.append g, hd.2.2.2.append g⟩

theorem allocDecl_ok (d : SDecl) (h : List TCell) : (∃ g, (allocDecl d h).1 = h ++ g) ∧
    DeclSpells (allocDecl d h).1 d (allocDecl d h).2 := by
  obtain ⟨⟨g1, h1⟩, a1⟩ := allocParts_ok d.fields h
  obtain ⟨⟨g2, h2⟩, a2⟩ := allocParts_ok d.params (allocParts d.fields h).1
  obtain ⟨⟨g3, h3⟩, a3⟩ := allocParts_ok d.funcs (allocParts d.params (allocParts d.fields h).1).1
  refine ⟨⟨g1 ++ (g2 ++ g3), ?_⟩, rfl, ?_, ?_, a3⟩
  · simp only [allocDecl]; rw [h3, h2, h1, List.append_assoc, List.append_assoc]
  · simp only [allocDecl]; rw [h3, h2, List.append_assoc]; exact a1.append _
  · simp only [allocDecl]; rw [h3]; exact a2.append _

theorem allocDecls_ok : (l : SText) → (h : List TCell) → (∃ g, (allocDecls l h).1 = h ++ g) ∧
    ∀ key, match l.lookup key with
      | none => (allocDecls l h).2.lookup key = none
      | some d => ∃ e, (allocDecls l h).2.lookup key = some (d.kind, e) ∧ DeclSpells (allocDecls l h).1 d e
  | [], h => ⟨⟨[], by simp [allocDecls]⟩, fun key => rfl⟩
  | (k, d) :: ds, h => by
    obtain ⟨⟨g1, h1⟩, a1⟩ := allocDecl_ok d h
    obtain ⟨⟨g2, h2⟩, a2⟩ := allocDecls_ok ds (allocDecl d h).1
    refine ⟨⟨g1 ++ g2, ?_⟩, fun key => ?_⟩
    · simp only [allocDecls]; rw [h2, h1, List.append_assoc]
    · simp only [allocDecls, List.lookup_cons]
      cases hk : key == k with
      | true =>
        refine ⟨_, rfl, ?_⟩
        rw [h2]
        exact a1.append _
      | false => exact a2 key

/-- Every schema has a model. -/
theorem parsed_parse (l : SText) : Parsed (schemaOf l) (parseSchema l) := by
  have ha := (allocDecls_ok l []).2
  constructor
  · intro p n
    have := ha (p, n)
    unfold schemaOf parseSchema
    cases hl : l.lookup (p, n) with
    | none => rw [hl] at this; simp only at this; simp only [this]; rfl
    | some d => rw [hl] at this; obtain ⟨e, he, -⟩ := this; simp only [he]; rfl
  · intro k p n e h
    have := ha (p, n)
    unfold schemaOf
    unfold parseSchema at h
    cases hl : l.lookup (p, n) with
    | none => rw [hl] at this; simp only at this; simp only [this] at h; cases h
    | some d =>
      rw [hl] at this
      obtain ⟨e', he, -⟩ := this
      simp only [he, Option.bind_some] at h
      refine ⟨d, rfl, ?_⟩
      by_contra hne
      rw [if_neg hne] at h
      cases h
  · intro p n d hd
    have := ha (p, n)
    unfold schemaOf at hd
    rw [hd] at this
    obtain ⟨e, he, h1, h2, h3, h4⟩ := this
    refine ⟨e, ?_, h1, h2, h3, h4⟩
    unfold parseSchema
    simp only [he, Option.bind_some, if_true]

/-! ## Deciding -/

/-- All pairs of the lists, which have the same length, satisfy `f`. -/
def allPairs {α β : Type} (f : α → β → Bool) : List α → List β → Bool
  | [], [] => true
  | a :: as, b :: bs => f a b && allPairs f as bs
  | _, _ => false

theorem allPairs_iff {α β : Type} {f : α → β → Bool} {R : α → β → Prop} (h : ∀ a b, R a b ↔ f a b = true) :
    ∀ {as : List α} {bs : List β}, List.Forall₂ R as bs ↔ allPairs f as bs = true
  | [], [] => by simp [allPairs]
  | a :: as, b :: bs => by
    rw [List.forall₂_cons, allPairs, Bool.and_eq_true, h, allPairs_iff h (as := as) (bs := bs)]
  | [], _ :: _ => by simp [allPairs]
  | _ :: _, [] => by simp [allPairs]

/-- The type arguments of a reference. -/
def tyargsB (s : TSt) (r : TPtr) (es : List Text) : Bool :=
  match s.heap[r]? with
  | none => false
  | some c => c.tyargs == es

theorem tyargsB_iff {s : TSt} {r : TPtr} {es : List Text} :
    (∃ c : TCell, s.heap[r]? = some c ∧ c.tyargs = es) ↔ tyargsB s r es = true := by
  unfold tyargsB
  cases h : s.heap[r]? with
  | none => simp
  | some c => simp

/-- `StandsFor` as a program. -/
def standsForB (strict : Bool) (W : TSchema) (s : TSt) : Nat → Ty → TPtr → Bool
  | 0, _, _ => true
  | n + 1, a, r => match s.heap[r]? with
    | none => false
    | some c => c.targs.isEmpty &&
      if a.args.isEmpty then c.builtin == a.builtin && c.pkg == a.pkg && c.name == a.name && c.bits == a.bits
      else !c.builtin && match W a.pkg a.name with
        | none => false
        | some d => match s.decl c.pkg c.name with
          | none => false
          | some (k, e) => k == d.kind && e.tparams.isEmpty &&
            let same := allPairs fun (x : TPart) (y : Text × TPtr) => x.name == y.1 &&
              standsForB strict W s n (x.ty.subst (d.sigma a.args)) y.2 && (!strict || tyargsB s y.2 x.tyargs)
            same d.fields e.fields && same d.params e.params && same d.funcs e.funcs

theorem standsForB_iff {strict : Bool} {W : TSchema} {s : TSt} : ∀ {n : Nat} {a : Ty} {r : TPtr},
    StandsFor strict W s n a r ↔ standsForB strict W s n a r = true
  | 0, _, _ => by simp [StandsFor, standsForB]
  | n + 1, a, r => by
    have hpart : ∀ (d : SDecl) (x : TPart) (y : Text × TPtr), (x.name = y.1 ∧
        StandsFor strict W s n (x.ty.subst (d.sigma a.args)) y.2 ∧
        (strict = true → ∃ c : TCell, s.heap[y.2]? = some c ∧ c.tyargs = x.tyargs)) ↔ (x.name == y.1 &&
          standsForB strict W s n (x.ty.subst (d.sigma a.args)) y.2 && (!strict || tyargsB s y.2 x.tyargs)) = true := by
      intro d x y
      rw [standsForB_iff, tyargsB_iff]
      cases strict <;> simp [and_assoc]
    unfold StandsFor standsForB
    cases hc : s.heap[r]? with
    | none => simp
    | some c =>
      simp only [Option.some.injEq, exists_eq_left']
      rw [Bool.and_eq_true, List.isEmpty_iff]
      refine and_congr_right fun _ => ?_
      by_cases ha : a.args = []
      · simp [ha, and_assoc]
      · have he : a.args.isEmpty = false := by
          cases h : a.args with
          | nil => exact absurd h ha
          | cons => rfl
        rw [if_neg ha, he]
        cases hw : W a.pkg a.name with
        | none => simp
        | some d =>
          cases hd : s.decl c.pkg c.name with
          | none => simp
          | some ke =>
            obtain ⟨k, e⟩ := ke
            simp only [Option.some.injEq, Prod.mk.injEq]
            constructor
            · rintro ⟨h1, d', e', rfl, ⟨rfl, rfl⟩, h3, h4, h5, h6⟩
              simp only [allPairs_iff (hpart d)] at h4 h5 h6
              simp [h1, h3, h4, h5, h6]
            · intro h
              simp only [Bool.false_eq_true, if_false, Bool.and_eq_true, Bool.not_eq_true', beq_iff_eq, List.isEmpty_iff] at h
              obtain ⟨h1, ⟨rfl, h3⟩, ⟨h4, h5⟩, h6⟩ := h
              exact ⟨h1, d, e, rfl, ⟨rfl, rfl⟩, h3, (allPairs_iff (hpart d)).2 h4, (allPairs_iff (hpart d)).2 h5,
                (allPairs_iff (hpart d)).2 h6⟩

/-- `PartsStandFor` as a program. -/
def partsStandForB (strict : Bool) (W : TSchema) (s : TSt) (n : Nat) : List TPart → List (Text × TPtr) → Bool :=
  allPairs fun x y => x.name == y.1 && standsForB strict W s n x.ty y.2 && (!strict || tyargsB s y.2 x.tyargs)

theorem partsStandForB_iff {strict : Bool} {W : TSchema} {s : TSt} {n : Nat} {xs : List TPart} {ys : List (Text × TPtr)} :
    PartsStandFor strict W s n xs ys ↔ partsStandForB strict W s n xs ys = true := by
  unfold PartsStandFor partsStandForB
  refine allPairs_iff fun x y => ?_
  rw [standsForB_iff, tyargsB_iff]
  cases strict <;> simp [and_assoc]

end Verif
