import Verif.Props.Functions

/-!
# C90 and C93: what is left out of the generated code has no influence on it

SQL tables and databases, services, pubsubs and rule groups are read (C85) and nothing is generated for them (C69).  They and the compatibility
version do not change what is generated for the other declarations.
-/

namespace Verif

/-- No SQL table or database, service, pubsub or rule group. -/
def CDirective.kept : CDirective → Bool
  | .other _ => false
  | _ => true

/-- A schema without SQL tables and databases, services, pubsubs, rule groups and compatibility version. -/
def CPackage.kept (p : CPackage) : CPackage := ⟨none, p.name, p.imports, p.directives.filter CDirective.kept⟩

theorem visitDirectives_kept (ds : List CDirective) : ∀ decls, visitDirectives decls (ds.filter CDirective.kept) = visitDirectives decls ds := by
  induction ds with
  | nil => intro decls; rfl
  | cons d ds ih =>
    intro decls
    cases d with
    | other o =>
      have h : (CDirective.other o :: ds).filter CDirective.kept = ds.filter CDirective.kept := rfl
      rw [h, ih]
      rfl
    | _ =>
      rw [List.filter_cons_of_pos rfl, visitDirectives, visitDirectives]
      simp only [ih]

theorem visitPackage_kept (p : CPackage) : visitPackage p.kept = visitPackage p := by
  simp only [visitPackage, CPackage.kept, visitDirectives_kept]

theorem loadPackages_kept (m : List APackage) (p : CPackage) : loadPackages m [p.kept] = loadPackages m [p] := by
  simp only [loadPackages, visitPackage_kept]

theorem compileText_read {p : CPackage} {s : List Char} (ht : TextOf p s) :
    compileText s = (do let ps ← loadPackages [] [p]; let ps ← resolveModel ps; let q ← ps.head?; packageCode q) := by
  obtain ⟨⟨ps, rfl, h1, h2, h3⟩, h4⟩ := ht
  obtain ⟨ts, e1, e2⟩ := Option.bind_eq_some_iff.1 (C85_text_partial h4 h1 h2 h3)
  simp only [compileText, bind, e1, e2, Option.bind_some]

/-- **C90**: two schemas that differ in SQL tables and databases, services, pubsubs, rule groups and the compatibility version only are accepted or
rejected together, and the same methods are generated for both. -/
theorem C90_others_same {p p' : CPackage} {s s' : List Char} (h : TextOf p s) (h' : TextOf p' s') (hk : p.kept = p'.kept) :
    compileText s = compileText s' ∧ compileFunctions s = compileFunctions s' := by
  have hl : loadPackages [] [p] = loadPackages [] [p'] := by rw [← loadPackages_kept, hk, loadPackages_kept]
  exact ⟨by rw [compileText_read h, compileText_read h', hl], by rw [compileFunctions_read h, compileFunctions_read h', hl]⟩

/-- **C90** for schemas that also have SQL tables and databases, services, pubsubs, rule groups and a compatibility version; what is generated is what
the other declarations mean.

Missing: as in `C90_schema_partial`, and everything for these declarations. -/
theorem C90_others_partial {p : CPackage} {s : List Char} (ht : TextOf p s) (hc : Closed p.kept) {ds : List Decl} (hm : SchemaMeans p.kept ds) :
    compileText s = some ds := by
  cases hn : p.kept.name with
  | none => exact absurd hn hc.named
  | some n =>
    rw [compileText_read ht, ← loadPackages_kept]
    exact packageCode_means hc.nodup (first := n.1) (rest := n.2) hn hc.alone hm

/-- **C93** for such schemas. -/
theorem C93_others_partial {p : CPackage} {s : List Char} (ht : TextOf p s) (hc : Closed p.kept) {ds : List Decl} (hm : SchemaMeans p.kept ds)
    {ms : List (List (List Char × (Env → GVal)))} (hf : List.Forall₂ (MethodsMean p.kept) p.kept.directives ms) : compileFunctions s = some ms :=
  functions_of_package (by rw [compileFunctions_read ht, loadPackages_kept]) hc hm hf

/-! ## A case -/

/-- `service V { S f(S); };` -/
def exService : COther := .service (exIdent 'V') [⟨exType 'S', exIdent 'f', exType 'S'⟩]

/-- The schema of `exFunctions` with a service behind the struct. -/
def exServed : CPackage := { exFunctions with directives := exFunctions.directives ++ [.other exService] }

example : exServed.kept = exFunctions := rfl

def exServedTokens : List Token := exFunctionsTokens ++ (exService.tokens)

theorem exServed_text : TextOf exServed (piecesText (spaced exServedTokens)) := by
  have h : PackageWritten exServed exServedTokens := ⟨_, .cons (.structure _ _ _) (.cons (.other _ trivial) .nil), by decide +kernel⟩
  have hf := spaced_fits (ts := exServedTokens) fun t ht => fineToken_proper ((List.all_eq_true (p := fineToken)).1 (by decide +kernel) t ht)
  refine ⟨⟨_, rfl, hf.1, hf.2.1, by rw [hf.2.2]; exact h⟩, fun d hd => ?_⟩
  rcases List.mem_append.1 hd with hd | hd
  · exact exFunctions_readable d hd
  · simp only [List.mem_cons, List.not_mem_nil, or_false] at hd
    subst hd
    trivial

/-- The text of the service. -/
example : piecesText (spaced exService.tokens) = "service V { S f ( S ) ; } ; ".toList := by decide +kernel

/-- C93 for this text. -/
example : compileFunctions (piecesText (spaced exServedTokens)) = some exMethods :=
  C93_others_partial exServed_text ⟨nofun, rfl, by decide⟩ exFunctions_means exFunctions_methods

/-- C90 for this text and the one without the service. -/
example : compileText (piecesText (spaced exServedTokens)) = compileText (piecesText (spaced exFunctionsTokens)) :=
  (C90_others_same exServed_text exFunctions_text rfl).1

end Verif
