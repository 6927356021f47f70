import Verif.TemplateUse

/-!
# Properties of template instantiation (C62-C65)

`Faithful` is the specification: a declaration has the parts of the schema, and each of them stands for the type the schema
gives it, where a template with arguments stands for the template with its arguments put in (`StandsFor`).
-/

namespace Verif

/-- After instantiation the declaration `m` of package `p` has the parts the schema gives it. -/
def Faithful (strict : Bool) (W : TSchema) (s : TSt) (p : String) (m : Text) : Prop :=
  ∀ d, W p m = some d → ∃ e, s.decls d.kind p m = some e ∧ e.tparams = [] ∧ ∀ k,
    PartsStandFor strict W s k d.fields e.fields ∧ PartsStandFor strict W s k d.params e.params ∧
    PartsStandFor strict W s k d.funcs e.funcs

theorem faithful_of {strict : Bool} {W : TSchema} {imports : String → List String} {P : TPlan W imports} {s0 s : TSt}
    {D : String → Text → Prop} {orig : Origins} (hp0 : Parsed W s0) (hi : TInv strict P s0 D [] s orig) {p : String} {m : Text}
    {d : SDecl} (hd : W p m = some d) (ht : d.tparams = []) (hD : D p m) : Faithful strict W s p m := by
  intro d' hd'
  rw [hd] at hd'
  cases hd'
  obtain ⟨e0, e, a1, a2, a3, a4, a5, a6⟩ := hi.plain hd ht
  obtain ⟨e1, he1, -, -, hp1, hf1⟩ := hp0.parts _ _ _ hd
  rw [a1] at he1
  cases he1
  refine ⟨e, a2, a3, fun k => ⟨?_, ?_, ?_⟩⟩
  · rcases a6 with ⟨h, -⟩ | ⟨h, -⟩
    · exact absurd hD h
    · exact hi.partsStandFor k h
  · rw [a4]
    exact hi.partsStandFor k (parts_id hi p hp1 fun x hx => P.simple hd (.inl hx))
  · rw [a5]
    exact hi.partsStandFor k (parts_id hi p hf1 fun x hx => P.simple hd (.inr hx))

theorem run_of {tot : Bool} {m : TM Unit} {s s' : TSt} {Q : Unit → TSt → Prop} (h : Run tot m s Q) (hm : m s = some (.ok ((), s'))) :
    Q () s' := by
  unfold Run at h
  rw [hm] at h
  exact h

/-- The invariant at the end of a run. -/
theorem end_inv {strict : Bool} {W : TSchema} {imports : String → List String} {s0 s : TSt} (hp : Parsed W s0)
    (hok : TemplatesOk W imports) (hbare : strict = true → BareParams W) {n : Nat} {order : List (TKind × String × Text)}
    (hrun : instantiateTemplates imports n order s0 = some (.ok ((), s))) : ∃ orig, TInv strict hok.plan s0
      (fun p m => False ∨ ∃ d, W p m = some d ∧ (d.kind, p, m) ∈ order) [] s orig :=
  run_of (instantiateTemplates_ok (tot := false) (ρ := fun _ _ => 0) (by simp) (fun h => hbare h) hp n (by simp) order
    (TInv.start hp)) hrun

/-- C62, partial: under the conditions `TemplatesOk`, in whatever order the declarations are visited and whatever the map
iteration adds, every visited declaration has its parts, and each stands for its type with all template arguments put in, to
every depth.  Missing are template types that carry parameters inside arguments, in unions, in parameters and in function
results, templates hidden by others of the same name, and types whose generated names collide: the theorems below show
that these go wrong. -/
theorem C62_instance_is_substitution_partial {W : TSchema} {imports : String → List String} {s0 s : TSt} (hp : Parsed W s0)
    (hok : TemplatesOk W imports) (n : Nat) (order : List (TKind × String × Text))
    (hrun : instantiateTemplates imports n order s0 = some (.ok ((), s))) {p : String} {m : Text} {d : SDecl}
    (hd : W p m = some d) (ht : d.tparams = []) (hv : (d.kind, p, m) ∈ order) : Faithful false W s p m := by
  obtain ⟨orig, hi⟩ := end_inv (strict := false) hp hok (by simp) hrun
  exact faithful_of hp hi hd ht (.inr ⟨d, hd, hv⟩)

/-- C62, partial: the name of an `instantiate` declaration stands for the type it names, for every reference to it. -/
theorem C62_instantiate_name_partial {W : TSchema} {imports : String → List String} {s0 s : TSt} (hp : Parsed W s0)
    (hok : TemplatesOk W imports) (n : Nat) (order : List (TKind × String × Text))
    (hrun : instantiateTemplates imports n order s0 = some (.ok ((), s))) {p : String} {m : Text} {d : SDecl} {x : TPart}
    (hd : W p m = some d) (hk : d.kind = .inst) (hv : (d.kind, p, m) ∈ order) (hx : x ∈ d.fields) (ha : x.ty.args ≠ [])
    {r : TPtr} {c : TCell} (hc : s.heap[r]? = some c) (hcb : c.builtin = false) (hcp : c.pkg = p) (hcn : c.name = m)
    (hct : c.targs = []) (k : Nat) : StandsFor false W s k x.ty r := by
  obtain ⟨orig, hi⟩ := end_inv (strict := false) hp hok (by simp) hrun
  obtain ⟨e0, e, a1, a2, a3, a4, a5, a6⟩ := hi.plain hd (hok.insts hd hk).1
  refine hi.standsFor k (p := p) ⟨by simp, c, hc, hct, .inr ⟨hcb, hcp, ha, ?_⟩⟩
  rcases a6 with ⟨h, -⟩ | ⟨-, h⟩
  · exact absurd (.inr ⟨d, hd, hv⟩) h
  · rw [hcn]
    exact h hk x hx ha

/-! ## Termination -/

mutual
/-- How deep the instantiation of a type goes, if `R` tells that for templates. -/
def Ty.weight (R : String → Text → Nat) : Ty → Nat
  | .mk _ _ _ _ [] => 0
  | .mk _ p n _ (a :: as) => R p n + 1 + max (Ty.weight R a) (Ty.weights R as)
def Ty.weights (R : String → Text → Nat) : List Ty → Nat
  | [] => 0
  | a :: as => max (Ty.weight R a) (Ty.weights R as)
end

/-- No template leads back to itself: `R` is above the weight of every field of a template, and `n` above the weight of every
field of other declarations. -/
structure Layered (W : TSchema) (R : String → Text → Nat) (n : Nat) : Prop where
  fields : ∀ {q m d x}, W q m = some d → d.tparams ≠ [] → x ∈ d.fields → x.ty.weight R ≤ R q m
  roots : ∀ {p m d x}, W p m = some d → d.tparams = [] → x ∈ d.fields → x.ty.weight R < n

theorem Ty.weight_args (R : String → Text → Nat) (t : Ty) (h : t.args ≠ []) :
    t.weight R = R t.pkg t.name + 1 + Ty.weights R t.args := by
  cases t with
  | mk b p n w as =>
    cases as with
    | nil => exact absurd rfl h
    | cons a as => simp [Ty.weight, Ty.weights, Ty.pkg, Ty.name, Ty.args]

theorem Ty.weight_le (R : String → Text → Nat) : ∀ {ts : List Ty} {a : Ty}, a ∈ ts → a.weight R ≤ Ty.weights R ts
  | t :: ts, a, h => by
    simp only [Ty.weights]
    rcases List.mem_cons.1 h with rfl | h
    · exact Nat.le_max_left _ _
    · exact Nat.le_trans (Ty.weight_le R h) (Nat.le_max_right _ _)

mutual
theorem Ty.weight_subst (R : String → Text → Nat) (σ : Text → Option Ty) (M : Nat) (hσ : ∀ n t, σ n = some t → t.weight R ≤ M) :
    (t : Ty) → (t.subst σ).weight R ≤ t.weight R + M
  | .mk b p n w [] => by
    simp only [Ty.subst]
    split
    · cases hs : σ n with
      | none => simp [Ty.weight]
      | some t => simpa [Ty.weight] using hσ n t hs
    · simp [Ty.weight]
  | .mk b p n w (a :: as) => by
    simp only [Ty.subst, Ty.weight]
    have h1 := Ty.weight_subst R σ M hσ a
    have h2 := Ty.weights_subst R σ M hσ as
    omega
theorem Ty.weights_subst (R : String → Text → Nat) (σ : Text → Option Ty) (M : Nat) (hσ : ∀ n t, σ n = some t → t.weight R ≤ M) :
    (ts : List Ty) → Ty.weights R (Ty.substAll σ ts) ≤ Ty.weights R ts + M
  | [] => by simp [Ty.substAll, Ty.weights]
  | a :: as => by
    simp only [Ty.substAll, Ty.weights]
    have h1 := Ty.weight_subst R σ M hσ a
    have h2 := Ty.weights_subst R σ M hσ as
    omega
end

theorem lookup_zip_mem : ∀ {ps : List Text} {ts : List Ty} {n : Text} {t : Ty}, (ps.zip ts).lookup n = some t → t ∈ ts
  | [], _, _, _, h => by simp at h
  | _ :: _, [], _, _, h => by simp at h
  | p :: ps, t' :: ts, n, t, h => by
    rw [List.zip_cons_cons, List.lookup_cons] at h
    cases hb : n == p with
    | true => rw [hb] at h; cases h; simp
    | false => rw [hb] at h; exact List.mem_cons_of_mem _ (lookup_zip_mem h)

/-- A layered schema is ranked. -/
theorem Layered.ranked {W : TSchema} {imports : String → List String} (hok : TemplatesOk W imports) {R : String → Text → Nat}
    {n : Nat} (hl : Layered W R n) : Ranked W (fun _ t => t.weight R) n := by
  have hargs : ∀ {p t a}, Used W p t → a ∈ t.args → a.args ≠ [] → a.weight R < t.weight R := by
    intro p t a hu ha _
    rw [Ty.weight_args R t hu.args_ne]
    have := Ty.weight_le R ha
    omega
  have hfields : ∀ {p t d x}, Used W p t → W t.pkg t.name = some d → x ∈ d.fields → x.ty.args ≠ [] →
      (x.ty.subst (d.sigma t.args)).weight R < t.weight R := by
    intro p t d x hu hd hx _
    have hne := hu.args_ne
    obtain ⟨d', hd', -, hlen, -⟩ := hok.decl hu
    rw [hd] at hd'
    cases hd'
    have htp : d.tparams ≠ [] := fun h => by
      rw [h] at hlen
      exact hne (List.length_eq_zero_iff.1 hlen.symm)
    have h1 := hl.fields hd htp hx
    have h2 := Ty.weight_subst R (d.sigma t.args) (Ty.weights R t.args) (fun n t' ht' =>
      Ty.weight_le R (lookup_zip_mem ht')) x.ty
    rw [Ty.weight_args R t hne]
    omega
  refine ⟨?_, hargs, hfields⟩
  intro p t hu
  induction hu with
  | root hd ht hx ha => exact hl.roots hd ht hx
  | arg hu ha hne ih => exact Nat.lt_trans (hargs hu ha hne) ih
  | field hu hd hx hne ih => exact Nat.lt_trans (hfields hu hd hx hne) ih

/-- C63, partial: without recursion between templates and under the conditions `TemplatesOk`, instantiation returns without an
error, in whatever order the declarations are visited.  Missing is recursion, which never ends (below). -/
theorem C63_instantiation_ends_partial {W : TSchema} {imports : String → List String} {s0 : TSt} (hp : Parsed W s0)
    (hok : TemplatesOk W imports) {R : String → Text → Nat} {n : Nat} (hl : Layered W R n)
    (order : List (TKind × String × Text)) : ∃ s, instantiateTemplates imports n order s0 = some (.ok ((), s)) := by
  have hr := hl.ranked hok
  have h := instantiateTemplates_ok (strict := false) (P := hok.plan) (tot := true) (ρ := fun _ t => t.weight R)
    (fun _ => ⟨fun hu => hr.args hu, fun hu => hr.fields hu⟩) (by simp) hp n (fun _ p t hu => hr.below hu) order (TInv.start hp)
  unfold Run at h
  rcases hm : instantiateTemplates imports n order s0 with _ | _ | ⟨⟨⟩, s⟩ <;> rw [hm] at h
  · cases h
  · cases h
  · exact ⟨s, rfl⟩

/-! ## Type arguments -/

/-- C64, partial: the type arguments written behind a type reach the field, parameter or function result they were written at,
also through templates and to every depth, if no type that is a template parameter has type arguments.  Missing are type
arguments behind a template parameter, which go wrong (below). -/
theorem C64_type_arguments_partial {W : TSchema} {imports : String → List String} {s0 s : TSt} (hp : Parsed W s0)
    (hok : TemplatesOk W imports) (hbare : BareParams W) (n : Nat) (order : List (TKind × String × Text))
    (hrun : instantiateTemplates imports n order s0 = some (.ok ((), s))) {p : String} {m : Text} {d : SDecl}
    (hd : W p m = some d) (ht : d.tparams = []) (hv : (d.kind, p, m) ∈ order) : Faithful true W s p m := by
  obtain ⟨orig, hi⟩ := end_inv (strict := true) hp hok (fun _ => hbare) hrun
  exact faithful_of hp hi hd ht (.inr ⟨d, hd, hv⟩)

/-! ## Names of instances -/

/-- C65, partial: a field whose type is a template with plain arguments and without `instantiate` declaration refers to the type
of the own package whose name is composed of the template and its arguments, so equal types in a package are one Go type.
Missing are nested template types, which can get two names (below). -/
theorem C65_instance_name_partial {W : TSchema} {imports : String → List String} {s0 s : TSt} (hp : Parsed W s0)
    (hok : TemplatesOk W imports) (n : Nat) (order : List (TKind × String × Text))
    (hrun : instantiateTemplates imports n order s0 = some (.ok ((), s))) {p : String} {m : Text} {d : SDecl}
    (hd : W p m = some d) (ht : d.tparams = []) (hv : (d.kind, p, m) ∈ order) (i : Nat) {x : TPart}
    (hx : d.fields[i]? = some x) (ha : x.ty.args ≠ []) (hflat : ∀ a ∈ x.ty.args, a.args = [])
    (hno : ∀ m' d', W p m' = some d' → d'.kind = .inst → d'.fields.map (·.ty) ≠ [x.ty]) :
    ∃ e r c, s.decls d.kind p m = some e ∧ e.fields[i]? = some (x.name, r) ∧ s.heap[r]? = some c ∧ c.builtin = false ∧
      c.pkg = p ∧ c.name = title x.ty.name ++ (x.ty.args.map fun a => title a.name).flatten := by
  obtain ⟨orig, hi⟩ := end_inv (strict := false) hp hok (by simp) hrun
  obtain ⟨e0, e, a1, a2, a3, a4, a5, a6⟩ := hi.plain hd ht
  rcases a6 with ⟨h, -⟩ | ⟨h, -⟩
  · exact absurd (.inr ⟨d, hd, hv⟩) h
  · have hlen := h.length_eq
    have hil : i < d.fields.length := (List.getElem?_eq_some_iff.1 hx).1
    have hi2 : i < e.fields.length := hlen ▸ hil
    have hpart := List.Forall₂.get h hil hi2
    have hxe : d.fields[i] = x := (List.getElem?_eq_some_iff.1 hx).2
    simp only [List.get_eq_getElem, hxe] at hpart
    obtain ⟨hn, ⟨-, c, hc, -, hk⟩, -⟩ := hpart
    refine ⟨e, e.fields[i].2, c, a2, ?_, hc, ?_⟩
    · rw [List.getElem?_eq_getElem hi2, hn]
    · rcases hk with hk | ⟨h1, h2, h3, h4⟩
      · exact absurd (by rw [show x.ty = _ from hk]; rfl) ha
      · obtain ⟨hu, ⟨-, hnm⟩, -⟩ := hi.made h4
        refine ⟨h1, h2, ?_⟩
        rw [x.ty.eta, NameOf] at hnm
        rcases hnm with ⟨ns, hns, hgen⟩ | ⟨d', hd', hki, -, hty⟩
        · rw [hgen]
          unfold genName
          have : ns = x.ty.args.map Ty.name := by
            have hall := argNames_iff.1 hns
            clear hgen hns
            generalize x.ty.args = as at hall hflat
            induction hall with
            | nil => rfl
            | cons hab _ ih =>
              rw [List.map_cons, ih fun a ha => hflat a (by simp [ha])]
              rcases hab with rfl | ⟨hne, -⟩
              · rfl
              · exact absurd (hflat _ (by simp)) hne
          rw [this, List.map_map]
          rfl
        · rw [← x.ty.eta] at hty
          exact absurd hty (hno _ _ hd' hki)

/-! ## An example -/

/-- A type by its name. -/
def exTy (p n : String) (as : List Ty := []) : Ty := .mk false p n.toList 0 as

/-- The template parameter of that name. -/
def exPar (n : String) : Ty := .mk false "" n.toList 0 []

/-- A builtin type. -/
def exPrim (n : String) (w : Nat := 0) : Ty := .mk true "" n.toList w []

def exPart (n : String) (t : Ty) (es : List String := []) : TPart := ⟨n.toList, t, es.map (·.toList)⟩

def exStruct (ps : List String) (fs : List TPart) : SDecl := ⟨.struct, ps.map (·.toList), fs, [], []⟩

/-- Nothing is imported. -/
def noImports : String → List String := fun _ => []

def exBoxFoo : Ty := exTy "p" "Box" [exTy "p" "Foo"]
def exPairInt : Ty := exTy "p" "Pair" [exTy "p" "Foo", exPrim "int32"]
def exPairBox : Ty := exTy "p" "Pair" [exTy "p" "Foo", exBoxFoo]
def exPairFoo : Ty := exTy "p" "Pair" [exTy "p" "Foo", exTy "p" "Foo"]

def exFoo : SDecl := exStruct [] [exPart "f" (exPrim "uint8")]
def exPair : SDecl := exStruct ["A", "B"] [exPart "first" (exPar "A"), exPart "second" (exPar "B")]
def exBox : SDecl := exStruct ["T"] [exPart "content" (exTy "p" "Pair" [exPar "T", exPrim "int32"])]
def exMain : SDecl := exStruct [] [exPart "x" exBoxFoo ["n"], exPart "y" exPairBox, exPart "z" (exTy "p" "Twin")]
def exTwin : SDecl := ⟨.inst, [], [exPart "" exPairFoo], [], []⟩

/-- `struct Foo { uint8 f; };  struct Pair<A, B> { A first; B second; };  struct Box<T> { Pair<T, int32> content; };`
`struct Main { Box<Foo>(n) x; Pair<Foo, Box<Foo>> y; Twin z; };  instantiate Pair<Foo, Foo> Twin;` -/
def exTemplates : SText := [(("p", "Foo".toList), exFoo), (("p", "Pair".toList), exPair), (("p", "Box".toList), exBox),
  (("p", "Main".toList), exMain), (("p", "Twin".toList), exTwin)]

theorem lookup_mem {l : SText} {k : String × Text} {d : SDecl} (h : l.lookup k = some d) : (k, d) ∈ l := by
  induction l with
  | nil => cases h
  | cons a l ih =>
    obtain ⟨k', d'⟩ := a
    rw [List.lookup_cons] at h
    cases hb : k == k' with
    | true => rw [hb] at h; cases h; rw [eq_of_beq hb]; simp
    | false => rw [hb] at h; exact List.mem_cons_of_mem _ (ih h)

theorem exTemplates_cases {p : String} {n : Text} {d : SDecl} (h : schemaOf exTemplates p n = some d) : p = "p" ∧
    ((n = "Foo".toList ∧ d = exFoo) ∨ (n = "Pair".toList ∧ d = exPair) ∨ (n = "Box".toList ∧ d = exBox) ∨
      (n = "Main".toList ∧ d = exMain) ∨ (n = "Twin".toList ∧ d = exTwin)) := by
  have hm := lookup_mem h
  simp only [exTemplates, List.mem_cons, Prod.mk.injEq, List.not_mem_nil, or_false] at hm
  rcases hm with ⟨⟨rfl, rfl⟩, rfl⟩ | ⟨⟨rfl, rfl⟩, rfl⟩ | ⟨⟨rfl, rfl⟩, rfl⟩ | ⟨⟨rfl, rfl⟩, rfl⟩ | ⟨⟨rfl, rfl⟩, rfl⟩ <;> simp

theorem exTemplates_used {p : String} {t : Ty} (h : Used (schemaOf exTemplates) p t) :
    p = "p" ∧ (t = exBoxFoo ∨ t = exPairInt ∨ t = exPairBox ∨ t = exPairFoo) := by
  induction h with
  | root hd ht hx ha =>
    obtain ⟨rfl, h⟩ := exTemplates_cases hd
    refine ⟨rfl, ?_⟩
    rcases h with ⟨-, rfl⟩ | ⟨-, rfl⟩ | ⟨-, rfl⟩ | ⟨-, rfl⟩ | ⟨-, rfl⟩
    · simp only [exFoo, exStruct, List.mem_singleton] at hx
      subst hx
      exact absurd rfl ha
    · cases ht
    · cases ht
    · simp only [exMain, exStruct, List.mem_cons, List.not_mem_nil, or_false] at hx
      rcases hx with rfl | rfl | rfl
      · exact .inl rfl
      · exact .inr (.inr (.inl rfl))
      · exact absurd rfl ha
    · simp only [exTwin, List.mem_singleton] at hx
      subst hx
      exact .inr (.inr (.inr rfl))
  | arg hu ha hne ih =>
    obtain ⟨rfl, ih⟩ := ih
    refine ⟨rfl, ?_⟩
    rcases ih with rfl | rfl | rfl | rfl <;>
      simp only [exBoxFoo, exPairInt, exPairBox, exPairFoo, exTy, Ty.args, List.mem_cons, List.not_mem_nil, or_false] at ha
    · subst ha; exact absurd rfl hne
    · rcases ha with rfl | rfl <;> exact absurd rfl hne
    · rcases ha with rfl | rfl
      · exact absurd rfl hne
      · exact .inl rfl
    · rcases ha with rfl | rfl <;> exact absurd rfl hne
  | field hu hd hx hne ih =>
    obtain ⟨rfl, ih⟩ := ih
    refine ⟨rfl, ?_⟩
    have key : ∀ q n, schemaOf exTemplates q n = some exPair → ∀ d' x', schemaOf exTemplates q n = some d' → x' ∈ d'.fields →
        x'.ty.args ≠ [] → False := by
      intro q n h1 d' x' h2 hx' hne'
      rw [h1] at h2
      cases h2
      simp only [exPair, exStruct, List.mem_cons, List.not_mem_nil, or_false] at hx'
      rcases hx' with rfl | rfl <;> exact hne' rfl
    rcases ih with rfl | rfl | rfl | rfl
    · have h1 : schemaOf exTemplates (Ty.pkg exBoxFoo) (Ty.name exBoxFoo) = some exBox := rfl
      rw [h1] at hd
      cases hd
      simp only [exBox, exStruct, List.mem_singleton] at hx
      subst hx
      exact .inr (.inl rfl)
    · exact (key _ _ rfl _ _ hd hx hne).elim
    · exact (key _ _ rfl _ _ hd hx hne).elim
    · exact (key _ _ rfl _ _ hd hx hne).elim

theorem exTemplates_inst {n : Text} {d : SDecl} {t : Ty} (h : schemaOf exTemplates "p" n = some d) (hk : d.kind = .inst)
    (ht : d.fields.map (·.ty) = [t]) : t = exPairFoo ∧ n = "Twin".toList := by
  obtain ⟨-, h⟩ := exTemplates_cases h
  rcases h with ⟨-, rfl⟩ | ⟨-, rfl⟩ | ⟨-, rfl⟩ | ⟨-, rfl⟩ | ⟨hn, rfl⟩
  · cases hk
  · cases hk
  · cases hk
  · cases hk
  · simp only [exTwin, List.map_cons, List.map_nil, List.cons.injEq, and_true] at ht
    exact ⟨ht.symm, hn⟩

theorem argNames_two {W : TSchema} {p : String} {a b : Ty} {ns : List Text} (h : ArgNames W p [a, b] ns) :
    ∃ m n, ns = [m, n] ∧ (m = a.name ∨ (a.args ≠ [] ∧ NameOf W p a m)) ∧ (n = b.name ∨ (b.args ≠ [] ∧ NameOf W p b n)) := by
  match ns, h with
  | [m, n], h =>
    simp only [ArgNames, and_true] at h
    exact ⟨m, n, rfl, h⟩
  | [], h => simp [ArgNames] at h
  | [_], h => simp [ArgNames] at h
  | _ :: _ :: _ :: _, h => simp [ArgNames] at h

theorem argNames_one {W : TSchema} {p : String} {a : Ty} {ns : List Text} (h : ArgNames W p [a] ns) :
    ∃ m, ns = [m] ∧ (m = a.name ∨ (a.args ≠ [] ∧ NameOf W p a m)) := by
  match ns, h with
  | [m], h =>
    simp only [ArgNames, and_true] at h
    exact ⟨m, rfl, h⟩
  | [], h => simp [ArgNames] at h
  | _ :: _ :: _, h => simp [ArgNames] at h

theorem exTemplates_boxFoo {n : Text} (h : NameOf (schemaOf exTemplates) "p" exBoxFoo n) : n = "BoxFoo".toList := by
  simp only [exBoxFoo, exTy, NameOf] at h
  rcases h with ⟨ns, hns, rfl⟩ | ⟨d, hd, hk, -, ht⟩
  · obtain ⟨m, rfl, rfl | ⟨hne, -⟩⟩ := argNames_one hns
    · decide +kernel
    · exact absurd rfl hne
  · have := (exTemplates_inst hd hk ht).1
    simp [exPairFoo, exTy] at this

theorem exTemplates_names {t : Ty} {n : Text} (hu : Used (schemaOf exTemplates) "p" t)
    (h : NameOf (schemaOf exTemplates) "p" t n) :
    (t = exBoxFoo ∧ n = "BoxFoo".toList) ∨ (t = exPairInt ∧ n = "PairFooInt32".toList) ∨
    (t = exPairBox ∧ (n = "PairFooBox".toList ∨ n = "PairFooBoxFoo".toList)) ∨
    (t = exPairFoo ∧ (n = "PairFooFoo".toList ∨ n = "Twin".toList)) := by
  rcases (exTemplates_used hu).2 with rfl | rfl | rfl | rfl
  · exact .inl ⟨rfl, exTemplates_boxFoo h⟩
  · refine .inr (.inl ⟨rfl, ?_⟩)
    simp only [exPairInt, exTy, exPrim, NameOf] at h
    rcases h with ⟨ns, hns, rfl⟩ | ⟨d, hd, hk, -, ht⟩
    · obtain ⟨m, n, rfl, rfl | ⟨hne, -⟩, rfl | ⟨hne, -⟩⟩ := argNames_two hns
      · decide +kernel
      · exact absurd rfl hne
      · exact absurd rfl hne
      · exact absurd rfl hne
    · have := (exTemplates_inst hd hk ht).1
      simp [exPairFoo, exTy] at this
  · refine .inr (.inr (.inl ⟨rfl, ?_⟩))
    simp only [exPairBox, exTy, NameOf] at h
    rcases h with ⟨ns, hns, rfl⟩ | ⟨d, hd, hk, -, ht⟩
    · obtain ⟨m, n, rfl, rfl | ⟨hne, -⟩, rfl | ⟨-, hn⟩⟩ := argNames_two hns
      · left; decide +kernel
      · right
        rw [exTemplates_boxFoo hn]
        decide +kernel
      · exact absurd rfl hne
      · exact absurd rfl hne
    · have := (exTemplates_inst hd hk ht).1
      simp [exPairFoo, exTy, exBoxFoo] at this
  · refine .inr (.inr (.inr ⟨rfl, ?_⟩))
    simp only [exPairFoo, exTy, NameOf] at h
    rcases h with ⟨ns, hns, rfl⟩ | ⟨d, hd, hk, -, ht⟩
    · obtain ⟨m, n, rfl, rfl | ⟨hne, -⟩, rfl | ⟨hne, -⟩⟩ := argNames_two hns
      · left; decide +kernel
      · exact absurd rfl hne
      · exact absurd rfl hne
      · exact absurd rfl hne
    · right
      exact (exTemplates_inst hd hk ht).2

theorem exTemplates_decl {p : String} {t : Ty} {d : SDecl} (hu : Used (schemaOf exTemplates) p t)
    (hd : schemaOf exTemplates t.pkg t.name = some d) : (t = exBoxFoo ∧ d = exBox) ∨
      (d = exPair ∧ (t = exPairInt ∨ t = exPairBox ∨ t = exPairFoo)) := by
  obtain ⟨rfl, h⟩ := exTemplates_used hu
  have hb : schemaOf exTemplates "p" "Box".toList = some exBox := rfl
  have hp : schemaOf exTemplates "p" "Pair".toList = some exPair := rfl
  rcases h with rfl | rfl | rfl | rfl
  · exact .inl ⟨rfl, (Option.some.inj (hb.symm.trans hd)).symm⟩
  all_goals refine .inr ⟨(Option.some.inj (hp.symm.trans hd)).symm, ?_⟩
  · exact .inl rfl
  · exact .inr (.inl rfl)
  · exact .inr (.inr rfl)

/-- The example satisfies the conditions. -/
theorem exTemplates_ok : TemplatesOk (schemaOf exTemplates) noImports where
  decl := by
    intro p t hu
    obtain ⟨-, h⟩ := exTemplates_used hu
    rcases h with rfl | rfl | rfl | rfl
    · exact ⟨exBox, rfl, .inl rfl, rfl, by decide⟩
    · exact ⟨exPair, rfl, .inl rfl, rfl, by decide⟩
    · exact ⟨exPair, rfl, .inl rfl, rfl, by decide⟩
    · exact ⟨exPair, rfl, .inl rfl, rfl, by decide⟩
  seen := by
    intro p t hu
    obtain ⟨rfl, h⟩ := exTemplates_used hu
    rcases h with rfl | rfl | rfl | rfl <;> rfl
  flat := by
    intro p t d x a hu hd hx ha
    rcases exTemplates_decl hu hd with ⟨-, rfl⟩ | ⟨rfl, -⟩
    · simp only [exBox, exStruct, List.mem_singleton] at hx
      subst hx
      simp only [exPart, exTy, Ty.args, List.mem_cons, List.not_mem_nil, or_false] at ha
      rcases ha with rfl | rfl
      · exact ⟨fun _ => ⟨rfl, rfl, rfl, rfl⟩, fun h => absurd (by decide +kernel) h⟩
      · exact ⟨fun h => absurd h (by decide +kernel), fun _ => by decide +kernel⟩
    · simp only [exPair, exStruct, List.mem_cons, List.not_mem_nil, or_false] at hx
      rcases hx with rfl | rfl <;> cases ha
  builtin := by
    intro p t d x hu hd hx hb
    rcases exTemplates_decl hu hd with ⟨-, rfl⟩ | ⟨rfl, -⟩
    · simp only [exBox, exStruct, List.mem_singleton, List.not_mem_nil, or_false] at hx
      subst hx
      cases hb
    · simp only [exPair, exStruct, List.mem_cons, List.not_mem_nil, or_false] at hx
      rcases hx with rfl | rfl <;> cases hb
  simple := by
    intro q n d x hd hx
    obtain ⟨-, h⟩ := exTemplates_cases hd
    rcases h with ⟨-, rfl⟩ | ⟨-, rfl⟩ | ⟨-, rfl⟩ | ⟨-, rfl⟩ | ⟨-, rfl⟩ <;> rcases hx with hx | hx <;> cases hx
  unions := by
    intro q n d x hd hk hx
    obtain ⟨-, h⟩ := exTemplates_cases hd
    rcases h with ⟨-, rfl⟩ | ⟨-, rfl⟩ | ⟨-, rfl⟩ | ⟨-, rfl⟩ | ⟨-, rfl⟩ <;> rcases hk with hk | hk <;> cases hk
  insts := by
    intro p n d hd hk
    obtain ⟨-, h⟩ := exTemplates_cases hd
    rcases h with ⟨-, rfl⟩ | ⟨-, rfl⟩ | ⟨-, rfl⟩ | ⟨-, rfl⟩ | ⟨-, rfl⟩
    · cases hk
    · cases hk
    · cases hk
    · cases hk
    · exact ⟨rfl, _, rfl⟩
  inj := by
    intro p t t' n hu hu' hn hn'
    obtain ⟨rfl, -⟩ := exTemplates_used hu
    rcases exTemplates_names hu hn with ⟨rfl, rfl⟩ | ⟨rfl, rfl⟩ | ⟨rfl, rfl | rfl⟩ | ⟨rfl, rfl | rfl⟩ <;>
      rcases exTemplates_names hu' hn' with ⟨rfl, h⟩ | ⟨rfl, h⟩ | ⟨rfl, h | h⟩ | ⟨rfl, h | h⟩ <;>
      first | rfl | exact absurd h (by decide +kernel)
  avoid := by
    intro p t n d hu hn hd
    obtain ⟨rfl, -⟩ := exTemplates_used hu
    obtain ⟨-, h⟩ := exTemplates_cases hd
    rcases exTemplates_names hu hn with ⟨rfl, rfl⟩ | ⟨rfl, rfl⟩ | ⟨rfl, rfl | rfl⟩ | ⟨rfl, rfl | rfl⟩ <;>
      rcases h with ⟨h, rfl⟩ | ⟨h, rfl⟩ | ⟨h, rfl⟩ | ⟨h, rfl⟩ | ⟨h, rfl⟩ <;>
      first | exact ⟨rfl, rfl⟩ | exact absurd h (by decide +kernel)
  hide := by
    intro p t n p' t' hu hn hu'
    obtain ⟨rfl, -⟩ := exTemplates_used hu
    obtain ⟨rfl, h'⟩ := exTemplates_used hu'
    rcases exTemplates_names hu hn with ⟨rfl, rfl⟩ | ⟨rfl, rfl⟩ | ⟨rfl, rfl | rfl⟩ | ⟨rfl, rfl | rfl⟩ <;>
      rcases h' with rfl | rfl | rfl | rfl <;> decide +kernel

/-- The depth of the templates of the example. -/
def exRank : String → Text → Nat := fun _ n => if n = "Box".toList then 1 else 0

theorem exTemplates_layered : Layered (schemaOf exTemplates) exRank 4 where
  fields := by
    intro q m d x hd ht hx
    obtain ⟨rfl, h⟩ := exTemplates_cases hd
    rcases h with ⟨rfl, rfl⟩ | ⟨rfl, rfl⟩ | ⟨rfl, rfl⟩ | ⟨rfl, rfl⟩ | ⟨rfl, rfl⟩
    · exact absurd rfl ht
    · simp only [exPair, exStruct, List.mem_cons, List.not_mem_nil, or_false] at hx
      rcases hx with rfl | rfl <;> decide +kernel
    · simp only [exBox, exStruct, List.mem_singleton] at hx
      subst hx
      decide +kernel
    · exact absurd rfl ht
    · exact absurd rfl ht
  roots := by
    intro p m d x hd ht hx
    obtain ⟨rfl, h⟩ := exTemplates_cases hd
    rcases h with ⟨rfl, rfl⟩ | ⟨rfl, rfl⟩ | ⟨rfl, rfl⟩ | ⟨rfl, rfl⟩ | ⟨rfl, rfl⟩
    · simp only [exFoo, exStruct, List.mem_singleton] at hx
      subst hx
      decide +kernel
    · cases ht
    · cases ht
    · simp only [exMain, exStruct, List.mem_cons, List.not_mem_nil, or_false] at hx
      rcases hx with rfl | rfl | rfl <;> decide +kernel
    · simp only [exTwin, List.mem_singleton] at hx
      subst hx
      decide +kernel

theorem exTemplates_bare : BareParams (schemaOf exTemplates) := by
  intro p t d x hu hd hx _ _
  rcases exTemplates_decl hu hd with ⟨-, rfl⟩ | ⟨rfl, -⟩
  · simp only [exBox, exStruct, List.mem_singleton, List.not_mem_nil, or_false] at hx
    subst hx
    rfl
  · simp only [exPair, exStruct, List.mem_cons, List.not_mem_nil, or_false] at hx
    rcases hx with rfl | rfl <;> rfl

/-- The visits of the example, `Main` before `Twin` and one instance visited, too. -/
def exOrder : List (TKind × String × Text) := [(.struct, "p", "Foo".toList), (.struct, "p", "Pair".toList),
  (.struct, "p", "Main".toList), (.struct, "p", "BoxFoo".toList), (.inst, "p", "Twin".toList)]

/-- C62, C63 and C64 say something about the example: the run returns and `Main` is as the schema says, type arguments
included. -/
example : ∃ s, instantiateTemplates noImports 4 exOrder (parseSchema exTemplates) = some (.ok ((), s)) ∧
    Faithful true (schemaOf exTemplates) s "p" "Main".toList := by
  obtain ⟨s, hs⟩ := C63_instantiation_ends_partial (parsed_parse exTemplates) exTemplates_ok exTemplates_layered exOrder
  have hd : schemaOf exTemplates "p" "Main".toList = some exMain := rfl
  exact ⟨s, hs, C64_type_arguments_partial (parsed_parse exTemplates) exTemplates_ok exTemplates_bare 4 exOrder hs
    hd rfl (by decide +kernel)⟩

/-- C62: a reference to `Twin`, as the field `z` of `Main` is one, stands for `Pair<Foo, Foo>`. -/
example {s : TSt} (hs : instantiateTemplates noImports 4 exOrder (parseSchema exTemplates) = some (.ok ((), s))) {r : TPtr}
    {c : TCell} (hc : s.heap[r]? = some c) (hn : c = ⟨false, "p", "Twin".toList, 0, [], []⟩) :
    StandsFor false (schemaOf exTemplates) s 7 exPairFoo r := by
  have hd : schemaOf exTemplates "p" "Twin".toList = some exTwin := rfl
  subst hn
  exact C62_instantiate_name_partial (x := exPart "" exPairFoo) (parsed_parse exTemplates) exTemplates_ok 4 exOrder hs hd
    rfl (by decide +kernel) (by simp [exTwin]) (by simp [exPart, exPairFoo, exTy, Ty.args]) hc rfl rfl rfl rfl 7

/-- C65: the field `x` of `Main` refers to `BoxFoo`. -/
example {s : TSt} (hs : instantiateTemplates noImports 4 exOrder (parseSchema exTemplates) = some (.ok ((), s))) :
    ∃ e r c, s.decls .struct "p" "Main".toList = some e ∧ e.fields[0]? = some ("x".toList, r) ∧ s.heap[r]? = some c ∧
      c.builtin = false ∧ c.pkg = "p" ∧ c.name = "BoxFoo".toList := by
  have hd : schemaOf exTemplates "p" "Main".toList = some exMain := rfl
  obtain ⟨e, r, c, h1, h2, h3, h4, h5, h6⟩ := C65_instance_name_partial (x := exPart "x" exBoxFoo ["n"])
    (parsed_parse exTemplates) exTemplates_ok 4 exOrder hs hd rfl (by decide +kernel) 0 rfl
    (by simp [exPart, exBoxFoo, exTy, Ty.args]) (by
      intro a ha
      simp only [exPart, exBoxFoo, exTy, Ty.args, List.mem_singleton] at ha
      subst ha
      rfl) (by
      intro m' d' hd' hk ht
      have := (exTemplates_inst hd' hk ht).1
      simp [exPart, exBoxFoo, exPairFoo, exTy] at this)
  refine ⟨e, r, c, h1, h2, h3, h4, h5, ?_⟩
  rw [h6]
  decide +kernel

/-! ## Where the code deviates -/

/-- The run ends without error, and then declaration `m` of `p`, which it visited, is not as the schema says at depth `k`. -/
def unfaithfulB (strict : Bool) (l : SText) (imports : String → List String) (n : Nat) (order : List (TKind × String × Text))
    (p : String) (m : Text) (k : Nat) : Bool :=
  match instantiateTemplates imports n order (parseSchema l), schemaOf l p m with
  | some (.ok (_, s)), some d => decide ((d.kind, p, m) ∈ order) && match s.decls d.kind p m with
    | none => true
    | some e => !(partsStandForB strict (schemaOf l) s k d.fields e.fields &&
      partsStandForB strict (schemaOf l) s k d.params e.params && partsStandForB strict (schemaOf l) s k d.funcs e.funcs)
  | _, _ => false

/-- The instantiation of schema `l` goes wrong without notice. -/
def GoesWrong (strict : Bool) (l : SText) (imports : String → List String) : Prop :=
  ∃ n order s p m d, instantiateTemplates imports n order (parseSchema l) = some (.ok ((), s)) ∧
    schemaOf l p m = some d ∧ (d.kind, p, m) ∈ order ∧ ¬ Faithful strict (schemaOf l) s p m

theorem goesWrong_of {strict : Bool} {l : SText} {imports : String → List String} (n : Nat)
    (order : List (TKind × String × Text)) (p : String) (m : Text) (k : Nat)
    (h : unfaithfulB strict l imports n order p m k = true) : GoesWrong strict l imports := by
  unfold unfaithfulB at h
  rcases hr : instantiateTemplates imports n order (parseSchema l) with _ | _ | ⟨⟨⟩, s⟩
  · rw [hr] at h; cases h
  · rw [hr] at h; cases h
  · rw [hr] at h
    cases hd : schemaOf l p m with
    | none => rw [hd] at h; cases h
    | some d =>
      rw [hd] at h
      simp only [Bool.and_eq_true, decide_eq_true_eq] at h
      refine ⟨n, order, s, p, m, d, hr, hd, h.1, fun hf => ?_⟩
      obtain ⟨e, he, -, hk⟩ := hf d hd
      obtain ⟨h1, h2, h3⟩ := hk k
      have h' := h.2
      rw [he] at h'
      simp [partsStandForB_iff.1 h1, partsStandForB_iff.1 h2, partsStandForB_iff.1 h3] at h'

/-- `struct X {…};  struct Bar<T> { T v; };  struct Baz<T> { T v; };` -/
def exBarBaz : SText := [(("p", "X".toList), exStruct [] [exPart "f" (exPrim "uint8")]),
  (("p", "Bar".toList), exStruct ["T"] [exPart "v" (exPar "T")]),
  (("p", "Baz".toList), exStruct ["T"] [exPart "v" (exPar "T")])]

/-- C62 does not hold as stated: with `struct Foo<T> { Bar<Baz<T>> f; };  struct Main { Foo<X> m; };` the argument is not put
into `Baz<T>`, the generated struct has a field of type `T`. -/
theorem C62_violated_nested_argument : GoesWrong false (exBarBaz ++
    [(("p", "Foo".toList), exStruct ["T"] [exPart "f" (exTy "p" "Bar" [exTy "p" "Baz" [exPar "T"]])]),
     (("p", "Main".toList), exStruct [] [exPart "m" (exTy "p" "Foo" [exTy "p" "X"])])]) noImports :=
  goesWrong_of 9 [(.struct, "p", "Main".toList)] "p" "Main".toList 5 (by decide +kernel)

/-- C62 does not hold as stated: in `struct Main { Bar<bit:5> a; Bar<bit:7> b; };` both fields get the type `BarBit`, which has
a field of 5 bits. -/
theorem C62_violated_bit_width : GoesWrong false (exBarBaz ++
    [(("p", "Main".toList), exStruct [] [exPart "a" (exTy "p" "Bar" [exPrim "bit" 5]), exPart "b" (exTy "p" "Bar" [exPrim "bit" 7])])])
    noImports :=
  goesWrong_of 9 [(.struct, "p", "Main".toList)] "p" "Main".toList 3 (by decide +kernel)

/-- C62 does not hold as stated: in `struct Main { Bar<Baz<string>> a; Bar<Baz<X>> b; };` both fields get the type `BarBaz`,
which has a field of type `BazString`. -/
theorem C62_violated_nested_name : GoesWrong false (exBarBaz ++
    [(("p", "Main".toList), exStruct [] [exPart "a" (exTy "p" "Bar" [exTy "p" "Baz" [exPrim "string"]]),
      exPart "b" (exTy "p" "Bar" [exTy "p" "Baz" [exTy "p" "X"]])])]) noImports :=
  goesWrong_of 9 [(.struct, "p", "Main".toList)] "p" "Main".toList 4 (by decide +kernel)

/-- C62 does not hold as stated: types of the same name from two packages are taken for one, so in
`struct Main { Bar<p.X> a; Bar<q.X> b; };` both fields hold a `p.X`. -/
theorem C62_violated_packages : GoesWrong false (exBarBaz ++ [(("q", "X".toList), exStruct [] [exPart "g" (exPrim "string")]),
    (("p", "Main".toList), exStruct [] [exPart "a" (exTy "p" "Bar" [exTy "p" "X"]), exPart "b" (exTy "p" "Bar" [exTy "q" "X"])])])
    (fun _ => ["q"]) :=
  goesWrong_of 9 [(.struct, "p", "Main".toList)] "p" "Main".toList 3 (by decide +kernel)

/-- C62 does not hold as stated: `Bar<X>` in a union is not instantiated. -/
theorem C62_violated_union : GoesWrong false (exBarBaz ++
    [(("p", "U".toList), ⟨.union, [], [exPart "m" (exTy "p" "Bar" [exTy "p" "X"])], [], []⟩)]) noImports :=
  goesWrong_of 9 [(.union, "p", "U".toList)] "p" "U".toList 2 (by decide +kernel)

/-- C62 does not hold as stated: `Bar<X>` as the type of a parameter, as in `struct S(Bar<X> b) {…};`, is not instantiated. -/
theorem C62_violated_parameter : GoesWrong false (exBarBaz ++
    [(("p", "S".toList), ⟨.struct, [], [], [exPart "b" (exTy "p" "Bar" [exTy "p" "X"])], []⟩)]) noImports :=
  goesWrong_of 9 [(.struct, "p", "S".toList)] "p" "S".toList 2 (by decide +kernel)

/-- C62 does not hold as stated: with `struct Inner<T> { T x; }; struct Outer<T> { Inner<T> f; };` in package `q` and another
`struct Inner<T> { T x; T y; };` in package `p`, which uses `Outer<X>`, the field `f` is an `Inner` of `p`. -/
theorem C62_violated_own_template : GoesWrong false (exBarBaz ++
    [(("q", "Inner".toList), exStruct ["T"] [exPart "x" (exPar "T")]),
     (("q", "Outer".toList), exStruct ["T"] [exPart "f" (exTy "q" "Inner" [exPar "T"])]),
     (("p", "Inner".toList), exStruct ["T"] [exPart "x" (exPar "T"), exPart "y" (exPar "T")]),
     (("p", "Main".toList), exStruct [] [exPart "m" (exTy "q" "Outer" [exTy "p" "X"])])]) (fun p => if p = "p" then ["q"] else []) :=
  goesWrong_of 9 [(.struct, "p", "Main".toList)] "p" "Main".toList 4 (by decide +kernel)

/-- C62 does not hold as stated: in `struct Foo<T> { Bar<q.T> f; };` the type `T` of package `q` is taken for the parameter. -/
theorem C62_violated_qualified_argument : GoesWrong false (exBarBaz ++
    [(("q", "T".toList), exStruct [] [exPart "g" (exPrim "string")]),
     (("p", "Foo".toList), exStruct ["T"] [exPart "f" (exTy "p" "Bar" [exTy "q" "T"])]),
     (("p", "Main".toList), exStruct [] [exPart "m" (exTy "p" "Foo" [exTy "p" "X"])])]) (fun p => if p = "p" then ["q"] else []) :=
  goesWrong_of 9 [(.struct, "p", "Main".toList)] "p" "Main".toList 4 (by decide +kernel)

/-- C64 does not hold as stated: in `struct Foo<T> { T(a) x; T(b) y; };  struct Main { Foo<X> m; };` both fields get the type
arguments of the second. -/
theorem C64_violated_shared_reference : GoesWrong true (exBarBaz ++
    [(("p", "Foo".toList), exStruct ["T"] [exPart "x" (exPar "T") ["a"], exPart "y" (exPar "T") ["b"]]),
     (("p", "Main".toList), exStruct [] [exPart "m" (exTy "p" "Foo" [exTy "p" "X"])])]) noImports :=
  goesWrong_of 9 [(.struct, "p", "Main".toList)] "p" "Main".toList 3 (by decide +kernel)

/-- The name of the type of a field. -/
def fieldTypeName (s : TSt) (p : String) (m : Text) (i : Nat) : Option Text :=
  ((s.decls .struct p m).bind fun e => e.fields[i]?).bind fun f => (s.heap[f.2]?).map (·.name)

/-- C65 does not hold as stated: with `struct Outer<T> { Bar<T> x; };  struct Main { Bar<Baz<X>> a; Outer<Baz<X>> b; };` the
type `Bar<Baz<X>>` is `BarBaz` as the field `a` and `BarBazX` as the field `x` of `b`. -/
theorem C65_violated_two_types : (match instantiateTemplates noImports 9 [(.struct, "p", "Main".toList)] (parseSchema (exBarBaz ++
    [(("p", "Outer".toList), exStruct ["T"] [exPart "x" (exTy "p" "Bar" [exPar "T"])]),
     (("p", "Main".toList), exStruct [] [exPart "a" (exTy "p" "Bar" [exTy "p" "Baz" [exTy "p" "X"]]),
       exPart "b" (exTy "p" "Outer" [exTy "p" "Baz" [exTy "p" "X"]])])])) with
    | some (.ok (_, s)) => some (fieldTypeName s "p" "Main".toList 0, fieldTypeName s "p" "Main".toList 1,
        fieldTypeName s "p" "OuterBaz".toList 0)
    | _ => none) = some (some "BarBaz".toList, some "OuterBaz".toList, some "BarBazX".toList) := by
  decide +kernel

/-- `struct X {…};  struct Node<T> { optional Node<T> next; T value; };  struct Main { Node<X> n; };` -/
def exNode : SText := [(("p", "X".toList), exStruct [] [exPart "f" (exPrim "uint8")]),
  (("p", "Node".toList), exStruct ["T"] [exPart "next" (exTy "p" "Node" [exPar "T"]), exPart "value" (exPar "T")]),
  (("p", "Main".toList), exStruct [] [exPart "n" (exTy "p" "Node" [exTy "p" "X"])])]

theorem TM.bind_ok {α β : Type} {m : TM α} {f : α → TM β} {s s' : TSt} {a : α} (h : m s = some (.ok (a, s'))) :
    (m >>= f) s = f a s' := by
  show TM.bind m f s = _
  unfold TM.bind
  rw [h]

theorem TM.bind_none {α β : Type} {m : TM α} {f : α → TM β} {s : TSt} (h : m s = none) : (m >>= f) s = none := by
  show TM.bind m f s = _
  unfold TM.bind
  rw [h]

theorem exNode_diverges : ∀ (n : Nat) (g : List TCell) (tr : TPtr), tr = 2 ∨ tr = 5 →
    instType noImports "p" n tr [4] none { parseSchema exNode with heap := (parseSchema exNode).heap ++ g } = none
  | 0, _, _, _ => rfl
  | n + 1, g, tr, htr => by
    generalize hs : ({ parseSchema exNode with heap := (parseSchema exNode).heap ++ g } : TSt) = s
    have hheap : s.heap = (parseSchema exNode).heap ++ g := by rw [← hs]
    have hdecls : s.decls = (parseSchema exNode).decls := by rw [← hs]
    have hkinds : s.kinds = (parseSchema exNode).kinds := by rw [← hs]
    have hcell : ∀ {r : TPtr} {c : TCell}, (parseSchema exNode).heap[r]? = some c → cell r s = some (.ok (c, s)) := by
      intro r c h
      unfold cell
      rw [hheap, getElem?_append_some g h]
    obtain ⟨x, hx⟩ : ∃ x, (parseSchema exNode).heap[tr]? = some ⟨false, "p", "Node".toList, 0, x, []⟩ := by
      rcases htr with rfl | rfl
      · exact ⟨[1], by decide +kernel⟩
      · exact ⟨[4], by decide +kernel⟩
    have h4 : (parseSchema exNode).heap[4]? = some ⟨false, "p", "X".toList, 0, [], []⟩ := by decide +kernel
    have h2 : (parseSchema exNode).heap[2]? = some ⟨false, "p", "Node".toList, 0, [1], []⟩ := by decide +kernel
    have h1 : (parseSchema exNode).heap[1]? = some ⟨false, "", "T".toList, 0, [], []⟩ := by decide +kernel
    have hlen : (parseSchema exNode).heap.length = 6 := by decide +kernel
    unfold instType
    rw [TM.bind_ok (hcell hx), TM.bind_ok (a := ["X".toList]) (s' := s) (by
      unfold cellNames
      rw [TM.bind_ok (hcell h4)]
      rfl), TM.bind_ok (a := s) (s' := s) rfl]
    have hf : findKind s "Node".toList ("p" :: noImports "p") = some (.struct, "p") := by
      have : findKind s "Node".toList ("p" :: noImports "p") = findKind (parseSchema exNode) "Node".toList ["p"] := by
        simp only [findKind, noImports, hkinds]
      rw [this]
      decide +kernel
    have hd : s.decls .struct "p" "Node".toList = some ⟨["T".toList], [("next".toList, 2), ("value".toList, 3)], [], []⟩ := by
      rw [hdecls]
      decide +kernel
    simp only [hf, hd, true_or, if_true]
    refine TM.bind_none ?_
    unfold instCompound
    rw [if_neg (by simp), TM.bind_ok (a := [4]) (s' := s) (by
      unfold instArgs
      rw [TM.bind_ok (hcell h4)]
      have hn : instType noImports "p" n 4 [] none = pure 4 := instType_nop (imports := noImports) "p" n 4 none
      rw [hn]
      rfl), TM.bind_ok (a := s.heap.length) (s' := { s with heap := s.heap ++ [⟨false, "p", "NodeX".toList, 0, [], []⟩] }) (by
      have : (none : Option Text).getD (genName "Node".toList ["X".toList]) = "NodeX".toList := by decide +kernel
      rw [this]
      rfl), TM.bind_ok (a := { s with heap := s.heap ++ [⟨false, "p", "NodeX".toList, 0, [], []⟩] })
        (s' := { s with heap := s.heap ++ [⟨false, "p", "NodeX".toList, 0, [], []⟩] }) rfl]
    have hex : (s.decls .struct "p" ((none : Option Text).getD (genName "Node".toList ["X".toList]))).isSome = false := by
      rw [hdecls]
      decide +kernel
    simp only [hex, Bool.false_eq_true, if_false]
    refine TM.bind_none ?_
    unfold instFields
    refine TM.bind_none ?_
    unfold instField
    have hs' : ({ s with heap := s.heap ++ [⟨false, "p", "NodeX".toList, 0, [], []⟩] } : TSt) =
        { parseSchema exNode with heap := (parseSchema exNode).heap ++ (g ++ [⟨false, "p", "NodeX".toList, 0, [], []⟩]) } := by
      rw [← hs]
      simp only [List.append_assoc]
    rw [hs']
    have hcell' : ∀ {r : TPtr} {c : TCell}, (parseSchema exNode).heap[r]? = some c → ∀ g',
        cell r { parseSchema exNode with heap := (parseSchema exNode).heap ++ g' } =
        some (.ok (c, { parseSchema exNode with heap := (parseSchema exNode).heap ++ g' })) := by
      intro r c h g'
      unfold cell
      simp only [getElem?_append_some g' h]
    rw [TM.bind_ok (hcell' h2 _), if_pos (by simp), TM.bind_ok (a := [4])
      (s' := { parseSchema exNode with heap := (parseSchema exNode).heap ++ (g ++ [⟨false, "p", "NodeX".toList, 0, [], []⟩]) }) (by
        unfold passArgs
        rw [TM.bind_ok (hcell' h1 _)]
        have : (templateTypes ["T".toList] [4] "T".toList).getD 1 = 4 := by decide +kernel
        simp only [this]
        rfl)]
    exact TM.bind_none (exNode_diverges n _ 2 (.inl rfl))

/-- C63 does not hold as stated: a template with a field of its own type never gets instantiated, however long it takes. -/
theorem C63_violated_recursive_template (n : Nat) :
    instantiateTemplates noImports n [(.struct, "p", "Main".toList)] (parseSchema exNode) = none := by
  unfold instantiateTemplates
  refine TM.bind_none ?_
  have hd : (parseSchema exNode).decls .struct "p" "Main".toList = some ⟨[], [("n".toList, 5)], [], []⟩ := by decide +kernel
  rw [visit_some hd (by simp)]
  refine TM.bind_none ?_
  unfold visitFields
  have h5 : (parseSchema exNode).heap[5]? = some ⟨false, "p", "Node".toList, 0, [4], []⟩ := by decide +kernel
  have hc : cell 5 (parseSchema exNode) = some (.ok (⟨false, "p", "Node".toList, 0, [4], []⟩, parseSchema exNode)) := by
    unfold cell
    rw [h5]
  rw [TM.bind_ok hc]
  refine TM.bind_none ?_
  have := exNode_diverges n [] 5 (.inr rfl)
  rw [List.append_nil] at this
  exact this

end Verif
