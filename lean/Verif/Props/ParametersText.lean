import Verif.Props.Generate
import Verif.Props.Parameters

/-!
# C99 for the text of a schema

The schemas for which C90 tells what is generated meet the conditions of C99: members of types with parameters have type arguments there, and no expression
looks at the parameters of a member.
-/

namespace Verif

theorem likes_val {vs ws : List Val} (h : List.Forall₂ Val.Like vs ws) (k : Elem) (i : Nat) : k.val (vs.getD i .none) = k.val (ws.getD i .none) := by
  rw [List.getD_eq_getElem?_getD, List.getD_eq_getElem?_getD]
  rcases likes_get h i with ⟨e1, e2⟩ | ⟨v, w, e1, e2, hv⟩
  · rw [e1, e2]
  · rw [e1, e2]; exact hv.val k

theorem likes_bool {vs ws : List Val} (h : List.Forall₂ Val.Like vs ws) (i : Nat) : (vs.getD i .none).asBool = (ws.getD i .none).asBool := by
  rw [List.getD_eq_getElem?_getD, List.getD_eq_getElem?_getD]
  rcases likes_get h i with ⟨e1, e2⟩ | ⟨v, w, e1, e2, hv⟩
  · rw [e1, e2]
  · rw [e1, e2]; cases hv <;> rfl

theorem likes_size {vs ws : List Val} (h : List.Forall₂ Val.Like vs ws) (i : Nat) : (vs.getD i .none).size = (ws.getD i .none).size := by
  rw [List.getD_eq_getElem?_getD, List.getD_eq_getElem?_getD]
  rcases likes_get h i with ⟨e1, e2⟩ | ⟨v, w, e1, e2, hv⟩
  · rw [e1, e2]
  · rw [e1, e2]
    cases hv with
    | list h => exact h.length_eq
    | _ => rfl

section exprs
variable {a : Place} {ps qs vs ws : List Val} (hp : a.params = [] ∨ ps = qs) (hv : List.Forall₂ Val.Like vs ws)
include hp hv

omit hv in
theorem NamesParam.same {n : Ident} {i : Nat} {k : Elem} {o : Option (Nat × Bool)} (h : NamesParam a n i k o) : ps = qs := by
  obtain ⟨h, _⟩ := h
  rcases hp with hp | hp
  · rw [hp] at h; cases h
  · exact hp

theorem NumMeans.like {e : CExpr} {g : NumTy} {f : Env → Int} (h : NumMeans a e g f) : f ⟨ps, vs⟩ = f ⟨qs, ws⟩ := by
  induction h with
  | @field _ i k _ _ _ _ => simp only [likes_val hv]
  | param h _ => simp only [h.same hp]
  | literal => rfl
  | item => rfl
  | constant => rfl
  | lengthof _ => simp only [likes_size hv]
  | parenthesized _ ih => exact ih
  | additive _ _ _ _ _ ihx ihy => simp only [ihx, ihy]
  | additiveMixed _ _ _ _ _ ihx ihy => simp only [ihx, ihy]
  | multiplyMixed _ _ _ _ _ ihx ihy => simp only [ihx, ihy]
  | multiplicative _ _ _ _ _ _ ihx ihy => simp only [ihx, ihy]
  | bitwiseAnd _ _ _ _ _ ihx ihy => simp only [ihx, ihy]
  | bitwiseOr _ _ _ _ _ ihx ihy => simp only [ihx, ihy]
  | bitwiseXor _ _ _ _ _ ihx ihy => simp only [ihx, ihy]
  | shift _ _ _ _ ihx ihy => simp only [ihx, ihy]

theorem CondMeans.like {e : CExpr} {f : Env → Bool} (h : CondMeans a e f) : f ⟨ps, vs⟩ = f ⟨qs, ws⟩ := by
  induction h with
  | field _ => simp only [likes_bool hv]
  | param h => simp only [h.same hp]
  | parenthesized _ ih => exact ih
  | relational hx hy _ => simp only [hx.like hp hv, hy.like hp hv]
  | equality hx hy _ => simp only [hx.like hp hv, hy.like hp hv]
  | and _ _ _ _ ihx ihy => simp only [ihx, ihy]
  | or _ _ _ ihx ihy => simp only [ihx, ihy]
  | not _ _ ih => simp only [ih]
  | isset hx _ _ => simp only [hx.like hp hv]

theorem ArgsMean.like {isArray : Bool} {cs : List CParam} {xs : List CTypeArg} {v : Env → Nat → List Val} (h : ArgsMean a isArray cs xs v) : v ⟨ps, vs⟩ = v ⟨qs, ws⟩ := by
  induction h with
  | nil => rfl
  | cons h _ ih =>
    cases h with
    | num _ _ h _ => simp only [h.like hp hv, ih]
    | bool _ h => simp only [h.like hp hv, ih]
    | index => simp only [ih]

theorem InstMeans.like {isArray : Bool} {t : CTypeInst} {ty : FTy} {cast : Bool} {width : Env → Option Nat} {args : Env → Option (Nat → List Val)}
    (h : InstMeans a isArray t ty cast width args) : width ⟨ps, vs⟩ = width ⟨qs, ws⟩ ∧ args ⟨ps, vs⟩ = args ⟨qs, ws⟩ := by
  cases h with
  | plain => exact ⟨rfl, rfl⟩
  | bits _ h => exact ⟨by simp only [h.like hp hv], rfl⟩
  | args _ _ _ _ h => exact ⟨rfl, by simp only [h.like hp hv]⟩

theorem ArrayOf.like {packed : Bool} {x : Option (Option CExpr)} {arr : Option Bool} {len : Env → Option Int} (h : ArrayOf a packed x arr len) :
    len ⟨ps, vs⟩ = len ⟨qs, ws⟩ := by
  cases h with
  | no => rfl
  | auto => rfl
  | fixed hn _ => exact congrArg some (hn.like hp hv)

theorem FieldMeans.like {f : CField} {g : Field} (h : FieldMeans a f g) : g.exprs ⟨ps, vs⟩ = g.exprs ⟨qs, ws⟩ := by
  obtain ⟨h1, _, _, _, _, h6, h7⟩ := h
  simp only [Exprs.mk.injEq]
  refine ⟨?_, (h6.like hp hv).1, h7.like hp hv, (h6.like hp hv).2⟩
  generalize f.optionalClause = x at h1
  cases h1 with
  | no => rfl
  | yes hc => exact hc.like hp hv

theorem MemberMeans.like {f : CChoiceField} {g : Field} (h : MemberMeans a f g) : g.exprs ⟨ps, vs⟩ = g.exprs ⟨qs, ws⟩ := by
  obtain ⟨_, h6, h7⟩ := h
  simp only [Exprs.mk.injEq]
  exact ⟨trivial, (h6.like hp hv).1, h7.like hp hv, (h6.like hp hv).2⟩

end exprs

/-- A field of a declaration with parameters `ps`. -/
structure FieldOf (p : CPackage) (ps : List CParam) (g : Field) : Prop where
  like : ∀ {qs rs vs ws : List Val}, ps = [] ∨ qs = rs → List.Forall₂ Val.Like vs ws → g.exprs ⟨qs, vs⟩ = g.exprs ⟨rs, ws⟩
  given : ∀ n, g.ty = .comp n → HasParams p (.comp n) [] ∨ ∀ env, (g.exprs env).args ≠ none

theorem InstMeans.given {a : Place} {isArray : Bool} {t : CTypeInst} {ty : FTy} {cast : Bool} {width : Env → Option Nat} {args : Env → Option (Nat → List Val)}
    (h : InstMeans a isArray t ty cast width args) (n : Nat) (e : ty = .comp n) : HasParams a.schema (.comp n) [] ∨ ∀ env, args env ≠ none := by
  cases h with
  | plain _ _ _ _ h => exact .inl (e ▸ h)
  | bits => cases e
  | args => exact .inr fun _ => nofun

theorem FieldMeans.of {a : Place} {f : CField} {g : Field} (h : FieldMeans a f g) : FieldOf a.schema a.params g :=
  ⟨fun hp hv => h.like hp hv, by obtain ⟨_, _, _, _, _, h6, _⟩ := h; exact h6.given⟩

theorem MemberMeans.of {a : Place} {f : CChoiceField} {g : Field} (h : MemberMeans a f g) : FieldOf a.schema a.params g :=
  ⟨fun hp hv => h.like hp hv, by obtain ⟨_, h6, _⟩ := h; exact h6.given⟩

theorem FieldOf.weaken {p : CPackage} {ps : List CParam} {g : Field} (h : FieldOf p [] g) : FieldOf p ps g :=
  ⟨fun _ hv => h.like (.inl rfl) hv, h.given⟩

theorem DirectiveMeans.fields {p : CPackage} {d : CDirective} {D : Decl} (h : DirectiveMeans p d (some D)) :
    (∀ g ∈ D.memberFields, FieldOf p d.params g) ∧ (d.params = [] → ∀ sel cases dflt, D ≠ .choice sel cases dflt) := by
  cases h with
  | @«structure» n ps cs fs gs h0 h1 _ _ h2 =>
    refine ⟨fun g hg => ?_, fun _ => nofun⟩
    obtain ⟨j, hf⟩ := List.mem_iff_getElem?.1 (show g ∈ fs from hg)
    obtain ⟨hj, _⟩ := List.getElem?_eq_some_iff.1 hf
    exact (h1 j cs[j] g (List.getElem?_eq_getElem (by omega)) hf).of
  | union h1 => exact ⟨fun g hg => (forall₂_right h1 g hg).elim fun _ h => h.2.of.weaken, fun _ => nofun⟩
  | @choice n x ps i s k o w cs es d g gs h1 hs h2 h3 h4 =>
    refine ⟨fun f hf => ?_, fun e => ?_⟩
    · rcases List.mem_append.1 (show f ∈ choiceFields es g from hf) with hf | hf
      · obtain ⟨e, he, e1⟩ := List.mem_filterMap.1 hf
        obtain ⟨c, _, hc⟩ := forall₂_right h3 e he
        obtain @⟨ls, g', _, hg⟩ := hc
        generalize c.field = y at hg
        cases hg with
        | no => cases e1
        | yes hg => cases e1; exact hg.of
      · cases h4 with
        | no => cases hf
        | empty => cases hf
        | yes _ h =>
          obtain rfl : f = _ := by simpa using hf
          exact h.of
    · rw [show ps = [] from e] at hs
      cases hs
  | enum => exact ⟨nofun, fun _ => nofun⟩
  | bitmask => exact ⟨nofun, fun _ => nofun⟩

theorem DirectiveMeans.isSome {p : CPackage} {d : CDirective} {o : Option Decl} (h : DirectiveMeans p d o) : d.typeName.isSome = o.isSome := by
  cases h <;> rfl

/-- The declaration of the type with a number. -/
theorem means_number {p : CPackage} : ∀ {ds : List CDirective} {os : List (Option Decl)} {i : Nat} {n : List Char}, List.Forall₂ (DirectiveMeans p) ds os →
    (ds.filterMap CDirective.typeName)[i]? = some n → ∃ d ∈ ds, ∃ D, d.typeName = some n ∧ DirectiveMeans p d (some D) ∧ (os.filterMap id)[i]? = some D
  | _, _, i, n, .nil, h => by cases h
  | d :: ds, o :: os, i, n, .cons hd hs, h => by
    have hi := hd.isSome
    cases o with
    | none =>
      rw [List.filterMap_cons_none (by cases e : d.typeName <;> simp_all)] at h
      obtain ⟨d', h1, D, h2, h3, h4⟩ := means_number hs h
      exact ⟨d', List.mem_cons_of_mem _ h1, D, h2, h3, h4⟩
    | some D =>
      obtain ⟨m, hm⟩ := Option.isSome_iff_exists.1 (hi.trans rfl)
      rw [List.filterMap_cons_some hm] at h
      cases i with
      | zero =>
        cases h
        exact ⟨d, List.mem_cons_self, D, hm, hd, rfl⟩
      | succ i =>
        obtain ⟨d', h1, D', h2, h3, h4⟩ := means_number hs (by simpa using h)
        exact ⟨d', List.mem_cons_of_mem _ h1, D', h2, h3, by simpa using h4⟩

theorem CDirective.typeName_declared {d : CDirective} {n : List Char} (h : d.typeName = some n) : d.declared = n := by
  cases d <;> first | (cases h; rfl) | cases h

theorem declared_inj {p : CPackage} (hc : (p.directives.map CDirective.declared).Nodup) {d d' : CDirective} (h : d ∈ p.directives) (h' : d' ∈ p.directives)
    (e : d.declared = d'.declared) : d = d' := List.inj_on_of_nodup_map hc h h' e

theorem SchemaMeans.own {p : CPackage} {ds : List Decl} (hm : SchemaMeans p ds) : ∀ D ∈ ds, D.OwnOnly := by
  obtain ⟨os, hm, rfl⟩ := hm
  intro D hD
  obtain ⟨o, ho, e⟩ := List.mem_filterMap.1 hD
  cases e
  obtain ⟨d, _, hd⟩ := forall₂_right hm _ ho
  exact fun f hf ps vs ws hv => (hd.fields.1 f hf).like (.inr rfl) hv

theorem SchemaMeans.given {p : CPackage} {ds : List Decl} (hc : Closed p) (hm : SchemaMeans p ds) : ∀ D ∈ ds, D.Given (byNumber ds) := by
  obtain ⟨os, hm, rfl⟩ := hm
  intro D hD
  obtain ⟨o, ho, e⟩ := List.mem_filterMap.1 hD
  cases e
  obtain ⟨d, _, hd⟩ := forall₂_right hm _ ho
  intro f hf n e
  refine ((hd.fields.1 f hf).given n e).imp_left fun h => ?_
  generalize hps : ([] : List CParam) = ps at h
  cases h with
  | @own d' _ m h1 h2 h3 =>
    obtain ⟨d2, g1, D', g2, g3, g4⟩ := means_number hm h3
    obtain rfl : d' = d2 := declared_inj hc.nodup h1 g1 ((CDirective.typeName_declared h2).trans (CDirective.typeName_declared g2).symm)
    have hD : byNumber (os.filterMap id) n = D' := by
      unfold byNumber
      rw [List.getD_eq_getElem?_getD, g4]
      rfl
    rw [hD]
    exact ⟨fun g hg ps qs vs => (g3.fields.1 g hg).like (.inl hps.symm) (Val.likes_refl vs), fun sel cases dflt e => absurd e (g3.fields.2 hps.symm sel cases dflt)⟩

/-- **C99** for the text of a schema: the methods that are generated do not look at the parameters that a user has left in members.

Missing: as in C90, in particular members of types with parameters without arguments (`C99_violated_missing`) and expressions that look at parameters
of members. -/
theorem C99_text_partial {p : CPackage} {s : List Char} (ht : TextOf p s) (hc : Closed p) {ds : List Decl} (hm : SchemaMeans p ds) :
    ∃ code, compileText s = some code ∧ ∀ (n name t : Nat) (ps vs ws : List Val), List.Forall₂ Val.Like vs ws →
      (methods (byNumber code) n name).Same (.obj t ps vs) (.obj t ps ws) :=
  ⟨ds, C90_schema_partial ht hc hm, fun n name t ps vs ws hv =>
    C99_stale (fun i => byNumber_all (fun D hD => hm.own D hD) (fun _ h => by cases h) i)
      (fun i => byNumber_all (Q := Decl.Given (byNumber ds)) (hm.given hc) (fun _ h => by cases h) i) n name t ps vs ws hv⟩

/-! ## Cases -/

/-- C99 for the text `package p; choice C(uint8 x) on x { case 1: uint16 a; case 2: bit<x> b; }; struct S { uint8 n; C(n) c; };`: with 200 as parameter of
`c` the same 10 bits are written as with 2. -/
example : ∃ code, compileText (piecesText (spaced exChoiceTokens)) = some code ∧
    wrun ((methods (byNumber code) 2 1).marshal (.obj 0 [] [.bits 8 2#8, .obj 0 [.bits 8 200#8] [.bits 16 0#16, .bits 64 3#64]])) [] =
      (.ok (), Wire.msb 8 2 ++ Wire.msb 2 3) := by
  obtain ⟨code, h1, h2⟩ := C99_text_partial exChoice_text exChoice_closed exChoice_means
  have : code = exChosen := Option.some.inj (h1.symm.trans exChoice_compiles)
  subst this
  refine ⟨_, h1, ?_⟩
  rw [← exChosen_bits]
  exact congrArg (wrun · []) (h2 2 1 0 [] _ _ (.cons (.refl _) (.cons (.obj 0 _ _ (Val.likes_refl _)) .nil))).marshal

/-- `uint8 n; C c;` -/
def exMissingFields : List CField := [exField (.builtin (.word .uint8)) (exIdent 'n'), exField (exType 'C') (exIdent 'c')]

/-- The same schema without the argument: `struct S { uint8 n; C c; };` -/
def exMissing : CPackage :=
  ⟨none, some (exIdent 'p', []), [], [exChoiceDecl, .structure ⟨exIdent 'S', [], []⟩ exMissingFields []]⟩

/-- Its tokens. -/
def exMissingTokens : List Token := exChoiceTokens.take 35 ++ [.id (exIdent 'C'), .id (exIdent 'c'), .sym .semicolon, .sym .rbrace, .sym .semicolon]

example : piecesText (spaced exMissingTokens) = ("package p ; choice C ( uint8 x ) on x { case 1 : uint16 a ; case 2 : bit < x > b ; } ; " ++
    "struct S { uint8 n ; C c ; } ; ").toList := by
  decide +kernel

theorem exMissing_text : TextOf exMissing (piecesText (spaced exMissingTokens)) := by
  have h : PackageWritten exMissing exMissingTokens :=
    ⟨_, .cons (.choice _ _ _ _ _ (by decide)) (.cons (.structure _ _ _) .nil), by decide +kernel⟩
  have hf := spaced_fits (ts := exMissingTokens) fun t ht => fineToken_proper ((List.all_eq_true (p := fineToken)).1 (by decide +kernel) t ht)
  refine ⟨⟨_, rfl, hf.1, hf.2.1, by rw [hf.2.2]; exact h⟩, fun d hd => ?_⟩
  simp only [exMissing, List.mem_cons, List.not_mem_nil, or_false] at hd
  rcases hd with rfl | rfl
  · exact exChoice_readable _ (by simp [exChoice])
  · have plain : ∀ f : CField, f.constraint = none → f.offset = none → ∀ (e : CExpr) (g : CField), f.bodyTokens ≠ e.tokens ++ .sym .colon :: g.bodyTokens :=
      fun f h _ => C85_plain (Or.inr (Or.inr (Or.inr (Or.inr (Or.inr (Or.inr (Or.inl h)))))))
    refine ⟨fun f hf => ?_, by simp⟩
    simp only [exMissingFields, List.mem_cons, List.not_mem_nil, or_false] at hf
    rcases hf with rfl | rfl
    all_goals
      refine ⟨?_, trivial, ?_, trivial, ?_, trivial, plain _ rfl⟩
      all_goals simp [CFieldTypeId.Readable, CTypeInst.Readable, OptGrouped, exField]

/-- The methods for it. -/
def exMissingCode : Option (List Decl) := do
  let ps ← loadPackages [] [exMissing]
  let ps ← resolveModel ps
  let p ← ps.head?
  packageCode p

theorem exMissing_compiles : compileText (piecesText (spaced exMissingTokens)) = exMissingCode := by
  obtain ⟨⟨ps, e, h1, h2, h3⟩, h4⟩ := exMissing_text
  rw [← e]
  obtain ⟨ts, e1, e2⟩ := Option.bind_eq_some_iff.1 (C85_text_partial h4 h1 h2 h3)
  unfold compileText
  rw [e1]
  simp only [bind, Option.bind_some, e2]
  rfl

/-- C99 does not hold as stated: type arguments may be left out of a schema, and then encoding looks at the parameter that the user has left in the member, while
decoding takes zero.  Of `{n: 2, c: {x: 2, b: 3}}` and `{n: 2, c: {x: 0, b: 3}}` the first has two more bits, and is not read back. -/
theorem C99_violated_missing : ∃ code, compileText (piecesText (spaced exMissingTokens)) = some code ∧
    wrun ((methods (byNumber code) 2 1).marshal (.obj 0 [] [.bits 8 2#8, .obj 0 [.bits 8 2#8] [.bits 16 0#16, .bits 64 3#64]])) [] =
      (.ok (), Wire.msb 8 2 ++ Wire.msb 2 3) ∧
    wrun ((methods (byNumber code) 2 1).marshal (.obj 0 [] [.bits 8 2#8, .obj 0 [.bits 8 0#8] [.bits 16 0#16, .bits 64 3#64]])) [] = (.ok (), Wire.msb 8 2) ∧
    (rrun ((methods (byNumber code) 2 1).unmarshal exChosenOld) ⟨Wire.msb 8 2 ++ Wire.msb 2 3, 0⟩).1 =
      .ok (.obj 0 [] [.bits 8 2#8, .obj 0 [.bits 8 0#8] [.bits 16 0#16, .bits 64 0#64]]) := by
  have h : exMissingCode = some (exMissingCode.getD []) := by
    have : exMissingCode.isSome = true := by decide +kernel
    obtain ⟨c, hc⟩ := Option.isSome_iff_exists.1 this
    rw [hc]; rfl
  exact ⟨_, exMissing_compiles.trans h, by decide +kernel, by decide +kernel, Val.ok_of_beq (by decide +kernel)⟩

end Verif
