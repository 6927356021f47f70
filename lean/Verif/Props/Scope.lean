import Verif.Scope
import Verif.Props.FrontPackages

/-!
# C76: names in expressions

The specification says what a name refers to in the declaration it is used in: to a member of that declaration, otherwise to a declaration
of the package, otherwise to a declaration of a package that is imported.
-/

namespace Verif

/-- The field of the default case of a choice. -/
def AChoiceCase.fieldOf (c : Option AChoiceCase) : List AField := (c.bind fun c => c.field).toList

/-- What a declaration declares inside, with what it is: parameters, fields and functions. -/
def ADecl.inside : ADecl → List (List Char × SSym)
  | .struct _ _ ps fs gs => ps.map (fun a => (a.name, .param a)) ++ fs.map (fun f => (f.name, .field f)) ++
      gs.map (fun g => (g.name, .function g))
  | .union _ _ ps fs gs => ps.map (fun a => (a.name, .param a)) ++ fs.map (fun f => (f.name, .field f)) ++
      gs.map (fun g => (g.name, .function g))
  | .choice _ _ ps _ cases default gs => ps.map (fun a => (a.name, .param a)) ++
      (cases.filterMap (fun c => c.field) ++ AChoiceCase.fieldOf default).map (fun f => (f.name, .field f)) ++
      gs.map (fun g => (g.name, .function g))
  | _ => []

/-- The package has imported the name, by itself or with everything else. -/
def ImportsName (ps : List APackage) (p : APackage) (n : List Char) (q : APackage) : Prop :=
  q ∈ ps ∧ ((q.name, ['*']) ∈ p.imports ∨ (q.name, n) ∈ p.imports)

/-- What the name `n` refers to in an expression of declaration `d` of package `p`. -/
inductive Refers (ps : List APackage) (p : APackage) (d : ADecl) (n : List Char) : SSym → Prop
  | member (s : SSym) : (n, s) ∈ d.inside → Refers ps p d n s
  | own (e : ADecl) : (∀ s, (n, s) ∉ d.inside) → e ∈ p.decls → e.name = n → Refers ps p d n (.decl e)
  | imported (q : APackage) (e : ADecl) : (∀ s, (n, s) ∉ d.inside) → (∀ e ∈ p.decls, e.name ≠ n) → ImportsName ps p n q →
      e ∈ q.decls → e.name = n → Refers ps p d n (.decl e)

/-- A schema without clashes: packages have different names, and so have the declarations of each and the members of each. -/
structure NoClash (ps : List APackage) : Prop where
  packages : (ps.map APackage.name).Nodup
  decls : ∀ p ∈ ps, (p.decls.map ADecl.name).Nodup
  members : ∀ p ∈ ps, ∀ d ∈ p.decls, (d.inside.map Prod.fst).Nodup

theorem inj_of_nodup_map {α β : Type} {f : α → β} {l : List α} (h : (l.map f).Nodup) {a b : α} (ha : a ∈ l) (hb : b ∈ l)
    (he : f a = f b) : a = b := List.inj_on_of_nodup_map h ha hb he

theorem getPackage_iff {ps : List APackage} (h : (ps.map APackage.name).Nodup) (n : List Char) (q : APackage) :
    getPackage ps n = some q ↔ q ∈ ps ∧ q.name = n := by
  unfold getPackage
  constructor
  · intro hq
    exact ⟨List.mem_of_find?_eq_some hq, by simpa using List.find?_some hq⟩
  · rintro ⟨hq, rfl⟩
    cases hf : ps.find? (fun p => p.name == q.name) with
    | none =>
      have := List.find?_eq_none.mp hf q hq
      simp at this
    | some r =>
      have hr : r.name = q.name := by simpa using List.find?_some hf
      rw [inj_of_nodup_map h (List.mem_of_find?_eq_some hf) hq hr]

theorem get_iff {p : APackage} (h : (p.decls.map ADecl.name).Nodup) (k : DeclKind) (n : List Char) (d : ADecl) :
    p.get k n = some d ↔ d ∈ p.decls ∧ d.name = n ∧ d.kind = k := by
  unfold APackage.get
  constructor
  · intro hd
    have := List.find?_some hd
    simp only [Bool.and_eq_true, beq_iff_eq] at this
    exact ⟨List.mem_of_find?_eq_some hd, this.2, this.1⟩
  · rintro ⟨hd, rfl, rfl⟩
    cases hf : p.decls.find? (fun e => e.kind == d.kind && e.name == d.name) with
    | none =>
      have := List.find?_eq_none.mp hf d hd
      simp at this
    | some r =>
      have hr := List.find?_some hf
      simp only [Bool.and_eq_true, beq_iff_eq] at hr
      rw [inj_of_nodup_map h (List.mem_of_find?_eq_some hf) hd hr.2]

theorem typeScope_iff {p : APackage} (h : (p.decls.map ADecl.name).Nodup) (n : List Char) (d : ADecl) :
    p.typeScope n = some d ↔ d ∈ p.decls ∧ d.name = n := by
  constructor
  · intro hd
    obtain ⟨k, hk⟩ := typeScope_some p n d hd
    have := (get_iff h k n d).mp hk
    exact ⟨this.1, this.2.1⟩
  · rintro ⟨hd, hn⟩
    refine typeScope_unique p n d d.kind ((get_iff h _ n d).mpr ⟨hd, hn, rfl⟩) ?_
    intro k hk
    cases hg : p.get k n with
    | none => rfl
    | some e =>
      have he := (get_iff h k n e).mp hg
      have : e = d := inj_of_nodup_map h he.1 hd (he.2.1.trans hn.symm)
      exact absurd (this ▸ he.2.2.symm) hk

theorem compoundScope_iff {p : APackage} (h : (p.decls.map ADecl.name).Nodup) (n : List Char) (d : ADecl) :
    p.compoundScope n = some d ↔ d ∈ p.decls ∧ d.name = n ∧ d.kind ∈ [DeclKind.struct, .union, .choice] := by
  unfold APackage.compoundScope
  simp only [List.foldl_cons, List.foldl_nil, List.mem_cons, List.not_mem_nil, or_false]
  constructor
  · intro hd
    have : p.get .struct n = some d ∨ p.get .union n = some d ∨ p.get .choice n = some d := by
      repeat' split at hd
      all_goals cases hd
      all_goals simp [*]
    rcases this with hg | hg | hg <;> obtain ⟨a, b, c⟩ := (get_iff h _ n d).mp hg <;> simp [a, b, c]
  · rintro ⟨hd, hn, hk⟩
    have other : ∀ k, k ≠ d.kind → p.get k n = none := by
      intro k hk
      cases hg : p.get k n with
      | none => rfl
      | some e =>
        have he := (get_iff h k n e).mp hg
        have : e = d := inj_of_nodup_map h he.1 hd (he.2.1.trans hn.symm)
        exact absurd (this ▸ he.2.2.symm) hk
    have own := (get_iff h d.kind n d).mpr ⟨hd, hn, rfl⟩
    rcases hk with hk | hk | hk <;> rw [hk] at own other <;>
      simp [own, other .union, other .choice]

/-- Members in the order of the list; with different names the last is the only one. -/
theorem lastEntry_iff {l : List (List Char × SSym)} (h : (l.map Prod.fst).Nodup) (n : List Char) (s : SSym) :
    lastEntry l n = some s ↔ (n, s) ∈ l := by
  unfold lastEntry
  constructor
  · intro hs
    obtain ⟨e, he, rfl⟩ := Option.map_eq_some_iff.mp hs
    have h1 := List.mem_of_find?_eq_some he
    have h2 : e.1 = n := by simpa using List.find?_some he
    rw [← h2]
    exact List.mem_reverse.mp h1
  · intro hm
    cases hf : l.reverse.find? (fun e => e.1 == n) with
    | none =>
      have := List.find?_eq_none.mp hf (n, s) (List.mem_reverse.mpr hm)
      simp at this
    | some e =>
      have h1 := List.mem_reverse.mp (List.mem_of_find?_eq_some hf)
      have h2 : e.1 = n := by simpa using List.find?_some hf
      have : e = (n, s) := inj_of_nodup_map h h1 hm h2
      simp [this]

theorem lastEntry_none {l : List (List Char × SSym)} {n : List Char} (h : ∀ s, (n, s) ∉ l) : lastEntry l n = none := by
  cases hs : lastEntry l n with
  | none => rfl
  | some s =>
    unfold lastEntry at hs
    obtain ⟨e, he, rfl⟩ := Option.map_eq_some_iff.mp hs
    have h1 := List.mem_reverse.mp (List.mem_of_find?_eq_some he)
    have h2 : e.1 = n := by simpa using List.find?_some he
    exact absurd (show (n, e.2) ∈ l from h2 ▸ h1) (h _)

theorem lastEntry_mem {l : List (List Char × SSym)} {n : List Char} {s : SSym} (hs : lastEntry l n = some s) : (n, s) ∈ l := by
  by_contra hn
  unfold lastEntry at hs
  obtain ⟨e, he, rfl⟩ := Option.map_eq_some_iff.mp hs
  have h1 := List.mem_reverse.mp (List.mem_of_find?_eq_some he)
  have h2 : e.1 = n := by simpa using List.find?_some he
  exact hn (show (n, e.2) ∈ l from h2 ▸ h1)

/-- What is entered into the scope of a declaration is declared in it. -/
theorem scopeEntries_sublist (d : ADecl) : d.scopeEntries.Sublist d.inside := by
  cases d with
  | struct n tps ps fs gs => exact List.Sublist.refl _
  | union n tps ps fs gs => exact List.sublist_append_left _ _
  | choice n tps ps sel cs dc gs =>
    simp only [ADecl.scopeEntries, ADecl.inside, List.map_append, ← List.append_assoc]
    exact (List.sublist_append_left _ _).trans (List.sublist_append_left _ _)
  | _ => exact List.Sublist.refl _

theorem scopeEntries_nodup {d : ADecl} (h : (d.inside.map Prod.fst).Nodup) : (d.scopeEntries.map Prod.fst).Nodup :=
  h.sublist ((scopeEntries_sublist d).map _)

/-! ## The scope that is set -/

theorem enter_other (pkg : List Char) (d : ADecl) (cur : Cur) (h : d.kind ≠ .struct) (h' : d.kind ≠ .choice) : d.enter pkg cur = cur := by
  cases d <;> first | rfl | exact absurd rfl h | exact absurd rfl h'

def ADecl.isTemplate : ADecl → Prop
  | .struct _ tps _ _ _ => tps ≠ []
  | .union _ tps _ _ _ => tps ≠ []
  | .choice _ tps _ _ _ _ _ => tps ≠ []
  | _ => False

theorem enter_own (pkg : List Char) (d : ADecl) (cur : Cur) (h : d.kind = .struct ∨ d.kind = .choice) (ht : ¬ d.isTemplate) :
    d.enter pkg cur pkg = some d.name := by
  cases d <;> simp_all [ADecl.kind, ADecl.enter, ADecl.isTemplate, ADecl.name]

theorem visitDecls_mem (ds : List (APackage × ADecl)) (cur : Cur) (v : Visit) (hv : v ∈ (visitDecls ds cur).1) :
    (v.pkg, v.decl) ∈ ds ∧ ∃ c, v.cur = v.decl.enter v.pkg.name c := by
  induction ds generalizing cur with
  | nil => cases hv
  | cons x ds ih =>
    obtain ⟨p, d⟩ := x
    simp only [visitDecls, List.mem_cons] at hv
    rcases hv with rfl | hv
    · exact ⟨List.mem_cons_self, cur, rfl⟩
    · exact ⟨List.mem_cons_of_mem _ (ih _ hv).1, (ih _ hv).2⟩

theorem visitDecls_plain (ds : List (APackage × ADecl)) (cur : Cur) (h : ∀ x ∈ ds, x.2.kind ≠ .struct ∧ x.2.kind ≠ .choice) :
    (visitDecls ds cur).2 = cur ∧ ∀ v ∈ (visitDecls ds cur).1, v.cur = cur := by
  induction ds generalizing cur with
  | nil => exact ⟨rfl, fun v hv => by cases hv⟩
  | cons x ds ih =>
    obtain ⟨p, d⟩ := x
    have hd := h (p, d) List.mem_cons_self
    have he := enter_other p.name d cur hd.1 hd.2
    have := ih (d.enter p.name cur) fun x hx => h x (List.mem_cons_of_mem _ hx)
    simp only [visitDecls, he, List.mem_cons] at this ⊢
    refine ⟨this.1, ?_⟩
    rintro v (rfl | hv)
    · rfl
    · exact this.2 v hv

theorem visitKinds_mem (ord : VisitOrder) (ks : List DeclKind) (cur : Cur) (v : Visit) (hv : v ∈ visitKinds ord ks cur) :
    ∃ k ∈ ks, (v.pkg, v.decl) ∈ ord k ∧ ∃ c, v.cur = v.decl.enter v.pkg.name c := by
  induction ks generalizing cur with
  | nil => cases hv
  | cons k ks ih =>
    simp only [visitKinds, List.mem_append] at hv
    rcases hv with hv | hv
    · obtain ⟨a, b⟩ := visitDecls_mem _ _ _ hv
      exact ⟨k, List.mem_cons_self, a, b⟩
    · obtain ⟨k', hk, h⟩ := ih _ hv
      exact ⟨k', List.mem_cons_of_mem _ hk, h⟩

/-- What is visited is declared. -/
theorem visit_declared {ps : List APackage} {ord : VisitOrder} (ho : ord.Ok ps) {v : Visit} (hv : v ∈ evaluateModel ord) :
    v.pkg ∈ ps ∧ v.decl ∈ v.pkg.decls := by
  obtain ⟨k, _, h, _⟩ := visitKinds_mem _ _ _ _ hv
  have := (ho k v.pkg v.decl).mp h
  exact ⟨this.1, this.2.1⟩

/-- **C76**: while a struct or choice is evaluated, its own scope is set. -/
theorem visit_own {ord : VisitOrder} {v : Visit} (hv : v ∈ evaluateModel ord) (hk : v.decl.kind = .struct ∨ v.decl.kind = .choice)
    (ht : ¬ v.decl.isTemplate) : v.cur v.pkg.name = some v.decl.name := by
  obtain ⟨k, _, _, c, hc⟩ := visitKinds_mem _ _ _ _ hv
  rw [hc]
  exact enter_own _ _ _ hk ht

/-- While anything else is evaluated, no scope is set in any package. -/
theorem visit_noscope {ps : List APackage} {ord : VisitOrder} (ho : ord.Ok ps) {v : Visit} (hv : v ∈ evaluateModel ord)
    (hk : v.decl.kind ≠ .struct) (hk' : v.decl.kind ≠ .choice) : v.cur = fun _ => none := by
  have kinds : ∀ k, k ≠ DeclKind.struct → k ≠ DeclKind.choice → ∀ x ∈ ord k, x.2.kind ≠ .struct ∧ x.2.kind ≠ .choice := by
    intro k h1 h2 x hx
    have := ((ho k x.1 x.2).mp hx).2.2
    rw [this]
    exact ⟨h1, h2⟩
  have own : ∀ k, ∀ w, ∀ cur, w ∈ (visitDecls (ord k) cur).1 → w.decl.kind = k := fun k w cur hw =>
    ((ho k _ _).mp (visitDecls_mem _ _ _ hw).1).2.2
  have late : ∀ ks cur, v ∈ visitKinds ord ks cur → v.decl.kind ∈ ks := by
    intro ks cur h
    obtain ⟨k, hk, hm, _⟩ := visitKinds_mem _ _ _ _ h
    rw [((ho k _ _).mp hm).2.2]
    exact hk
  unfold evaluateModel evaluationOrder at hv
  rw [show ([.const, .enum, .union, .bitmask, .struct, .choice] : List DeclKind) = [.const, .enum, .union, .bitmask] ++ [.struct, .choice]
    from rfl] at hv
  have gen : ∀ ks, (∀ k ∈ ks, k ≠ DeclKind.struct ∧ k ≠ DeclKind.choice) → ∀ cur, v ∈ visitKinds ord (ks ++ [.struct, .choice]) cur → v.cur = cur := by
    intro ks
    induction ks with
    | nil =>
      intro _ cur h
      have := late _ _ h
      simp [hk, hk'] at this
    | cons k ks ih =>
      intro hks cur h
      have hp := visitDecls_plain (ord k) cur (kinds k (hks k List.mem_cons_self).1 (hks k List.mem_cons_self).2)
      simp only [List.cons_append, visitKinds, List.mem_append] at h
      rcases h with h | h
      · exact hp.2 v h
      · rw [hp.1] at h
        exact ih (fun k hk => hks k (List.mem_cons_of_mem _ hk)) cur h
  exact gen _ (by decide) _ hv

/-! ## Lookup -/

theorem mem_importedOf {ps : List APackage} (h : (ps.map APackage.name).Nodup) (p q : APackage) :
    q ∈ importedOf ps p ↔ q ∈ ps ∧ (q.name, ['*']) ∈ p.imports := by
  unfold importedOf
  rw [List.mem_filterMap]
  constructor
  · rintro ⟨⟨a, b⟩, hi, hq⟩
    by_cases hb : b = ['*']
    · simp only [hb, if_true] at hq
      obtain ⟨h1, h2⟩ := (getPackage_iff h a q).mp hq
      exact ⟨h1, by rw [h2, ← hb]; exact hi⟩
    · simp [hb] at hq
  · rintro ⟨h1, h2⟩
    exact ⟨_, h2, by simpa using (getPackage_iff h q.name q).mpr ⟨h1, rfl⟩⟩

theorem typeSymbol_iff {p : APackage} (h : (p.decls.map ADecl.name).Nodup) (n : List Char) (r : Found) :
    p.typeSymbol n = some r ↔ ∃ e ∈ p.decls, e.name = n ∧ r = ⟨.decl e, n, p.name, []⟩ := by
  unfold APackage.typeSymbol
  rw [Option.map_eq_some_iff]
  constructor
  · rintro ⟨e, he, rfl⟩
    obtain ⟨h1, h2⟩ := (typeScope_iff h n e).mp he
    exact ⟨e, h1, h2, rfl⟩
  · rintro ⟨e, he, hn, rfl⟩
    exact ⟨e, (typeScope_iff h n e).mpr ⟨he, hn⟩, rfl⟩

theorem typeSymbol_none {p : APackage} (h : (p.decls.map ADecl.name).Nodup) (n : List Char) (hn : ∀ e ∈ p.decls, e.name ≠ n) :
    p.typeSymbol n = none := by
  cases ht : p.typeSymbol n with
  | none => rfl
  | some r =>
    obtain ⟨e, he, hne, _⟩ := (typeSymbol_iff h n r).mp ht
    exact absurd hne (hn e he)

theorem compoundSymbol_iff {p : APackage} (h : (p.decls.map ADecl.name).Nodup) {d : ADecl} (hd : d ∈ p.decls)
    (hk : d.kind ∈ [DeclKind.struct, .union, .choice]) (hm : (d.inside.map Prod.fst).Nodup) (n : List Char) (r : Found) :
    p.compoundSymbol d.name n = some r ↔ ∃ s, (n, s) ∈ d.scopeEntries ∧ r = ⟨s, n, p.name, d.name⟩ := by
  unfold APackage.compoundSymbol
  rw [(compoundScope_iff h d.name d).mpr ⟨hd, rfl, hk⟩]
  simp only [Option.map_eq_some_iff]
  constructor
  · rintro ⟨s, hs, rfl⟩
    exact ⟨s, (lastEntry_iff (scopeEntries_nodup hm) n s).mp hs, rfl⟩
  · rintro ⟨s, hs, rfl⟩
    exact ⟨s, (lastEntry_iff (scopeEntries_nodup hm) n s).mpr hs, rfl⟩

/-- A member that is found is one of a declaration of that name. -/
theorem compoundSymbol_some {p : APackage} (h : (p.decls.map ADecl.name).Nodup) {c n : List Char} {r : Found}
    (hr : p.compoundSymbol c n = some r) : ∃ d ∈ p.decls, d.name = c ∧ d.kind ∈ [DeclKind.struct, .union, .choice] ∧
      (n, r.sym) ∈ d.scopeEntries ∧ r = ⟨r.sym, n, p.name, c⟩ := by
  unfold APackage.compoundSymbol at hr
  cases hd : p.compoundScope c with
  | none => rw [hd] at hr; cases hr
  | some d =>
    rw [hd] at hr
    obtain ⟨s, hs, rfl⟩ := Option.map_eq_some_iff.mp hr
    obtain ⟨h1, h2, h3⟩ := (compoundScope_iff h c d).mp hd
    exact ⟨d, h1, h2, h3, lastEntry_mem hs, rfl⟩

/-- Names that the scope of a declaration has: not the members of a union, nor the functions and the default case of a choice. -/
def Reached (d : ADecl) (n : List Char) : Prop :=
  match d with
  | .union _ _ ps fs gs => n ∉ ps.map AParam.name ∧ n ∉ fs.map AField.name ∧ n ∉ gs.map AFunction.name
  | .choice _ _ _ _ _ default gs => n ∉ (AChoiceCase.fieldOf default).map AField.name ∧ n ∉ gs.map AFunction.name
  | _ => True

theorem reached_entries {d : ADecl} {n : List Char} (h : Reached d n) (s : SSym) (hm : (n, s) ∈ d.inside) :
    (d.kind = .struct ∨ d.kind = .choice) ∧ (n, s) ∈ d.scopeEntries := by
  cases d with
  | struct => exact ⟨.inl rfl, hm⟩
  | choice nm tps ps sel cs dc gs =>
    refine ⟨.inr rfl, ?_⟩
    obtain ⟨h1, h2⟩ := h
    simp only [ADecl.inside, List.map_append, List.mem_append, ADecl.scopeEntries] at hm ⊢
    rcases hm with (hm | hm | hm) | hm
    · exact .inl hm
    · exact .inr hm
    · obtain ⟨f, hf, he⟩ := List.mem_map.mp hm
      cases he
      exact absurd (List.mem_map_of_mem hf) h1
    · obtain ⟨f, hf, he⟩ := List.mem_map.mp hm
      cases he
      exact absurd (List.mem_map_of_mem hf) h2
  | union nm tps ps fs gs =>
    obtain ⟨h1, h2, h3⟩ := h
    simp only [ADecl.inside, List.mem_append] at hm
    rcases hm with (hm | hm) | hm
    all_goals
      obtain ⟨f, hf, he⟩ := List.mem_map.mp hm
      cases he
    · exact absurd (List.mem_map_of_mem hf) h1
    · exact absurd (List.mem_map_of_mem hf) h2
    · exact absurd (List.mem_map_of_mem hf) h3
  | _ => cases hm

theorem inside_kind {d : ADecl} {n : List Char} {s : SSym} (hm : (n, s) ∈ d.inside) : d.kind ∈ [DeclKind.struct, .union, .choice] := by
  cases d <;> first | (simp [ADecl.kind]; done) | cases hm

theorem getTypeSymbol_own {ps : List APackage} {p : APackage} (h : (p.decls.map ADecl.name).Nodup) {e : ADecl} (he : e ∈ p.decls) :
    getTypeSymbol ps p e.name = some ⟨.decl e, e.name, p.name, []⟩ := by
  unfold getTypeSymbol
  rw [List.findSome?_cons, (typeSymbol_iff h e.name _).mpr ⟨e, he, rfl, rfl⟩]

theorem getTypeSymbol_some {ps : List APackage} (hc : NoClash ps) {p : APackage} (hp : p ∈ ps) {n : List Char} {r : Found}
    (hr : getTypeSymbol ps p n = some r) :
    (∃ e ∈ p.decls, e.name = n ∧ r = ⟨.decl e, n, p.name, []⟩) ∨
    ((∀ e ∈ p.decls, e.name ≠ n) ∧ ∃ q ∈ ps, (q.name, ['*']) ∈ p.imports ∧ ∃ e ∈ q.decls, e.name = n ∧ r = ⟨.decl e, n, q.name, []⟩) := by
  unfold getTypeSymbol at hr
  rw [List.findSome?_cons] at hr
  cases ho : p.typeSymbol n with
  | some r' =>
    rw [ho] at hr
    cases hr
    exact .inl ((typeSymbol_iff (hc.decls p hp) n r).mp ho)
  | none =>
    rw [ho] at hr
    right
    refine ⟨fun e he hn => ?_, ?_⟩
    · rw [(typeSymbol_iff (hc.decls p hp) n _).mpr ⟨e, he, hn, rfl⟩] at ho
      cases ho
    · obtain ⟨q, hq, hqr⟩ := List.exists_of_findSome?_eq_some hr
      obtain ⟨h1, h2⟩ := (mem_importedOf hc.packages p q).mp hq
      exact ⟨q, h1, h2, (typeSymbol_iff (hc.decls q h1) n r).mp hqr⟩

theorem getTypeSymbol_none {ps : List APackage} (hc : NoClash ps) {p : APackage} (hp : p ∈ ps) {n : List Char}
    (h1 : ∀ e ∈ p.decls, e.name ≠ n) (h2 : ∀ q ∈ ps, (q.name, ['*']) ∈ p.imports → ∀ e ∈ q.decls, e.name ≠ n) :
    getTypeSymbol ps p n = none := by
  cases hr : getTypeSymbol ps p n with
  | none => rfl
  | some r =>
    rcases getTypeSymbol_some hc hp hr with ⟨e, he, hn, _⟩ | ⟨_, q, hq, hi, e, he, hn, _⟩
    · exact absurd hn (h1 e he)
    · exact absurd hn (h2 q hq hi e he)

/-- Nothing else goes by the name of a member. -/
def NotShadowed (ps : List APackage) (p : APackage) (d : ADecl) (n : List Char) : Prop :=
  (∃ s, (n, s) ∈ d.inside) → (∀ e ∈ p.decls, e.name ≠ n) ∧ ∀ q, ImportsName ps p n q → ∀ e ∈ q.decls, e.name ≠ n

/-- **C76**: what a name refers to is found.  Missing: members of unions, functions and the default case of choices (`Reached`), members
that are named like a declaration (`NotShadowed`), and names imported by themselves. -/
theorem C76_found_partial (ps : List APackage) (hc : NoClash ps) (ord : VisitOrder) (ho : ord.Ok ps) (order : EnumOrder) (fuel : Nat)
    (v : Visit) (hv : v ∈ evaluateModel ord) (ht : ¬ v.decl.isTemplate) (n : List Char) (hr : Reached v.decl n)
    (hs : NotShadowed ps v.pkg v.decl n) (hi : ∀ q, (q, n) ∉ v.pkg.imports)
    (hone : ∀ q q', ImportsName ps v.pkg n q → ImportsName ps v.pkg n q' → (∃ e ∈ q.decls, e.name = n) → (∃ e ∈ q'.decls, e.name = n) → q = q')
    (s : SSym) (h : Refers ps v.pkg v.decl n s) :
    ∃ r, getSymbolIn ps order fuel v.cur v.pkg n = some r ∧ r.sym = s := by
  obtain ⟨hp, hd⟩ := visit_declared ho hv
  cases h with
  | member _ hm =>
    obtain ⟨hk, he⟩ := reached_entries hr s hm
    obtain ⟨h1, h2⟩ := hs ⟨s, hm⟩
    have hno := getTypeSymbol_none hc hp h1 fun q hq hi => h2 q ⟨hq, .inl hi⟩
    have hcur := visit_own hv hk ht
    have hcs := (compoundSymbol_iff (hc.decls _ hp) hd (inside_kind hm) (hc.members _ hp _ hd) n _).mpr ⟨s, he, rfl⟩
    refine ⟨⟨s, n, v.pkg.name, v.decl.name⟩, ?_, rfl⟩
    unfold getSymbolIn
    rw [hno]
    simp only [getCurrentSymbol, List.findSome?_cons, hcur, hcs]
  | own e hn he hen =>
    subst hen
    refine ⟨⟨.decl e, e.name, v.pkg.name, []⟩, ?_, rfl⟩
    unfold getSymbolIn
    rw [getTypeSymbol_own (hc.decls _ hp) he]
  | imported q e hn hno hq he hen =>
    cases hr' : getTypeSymbol ps v.pkg n with
    | none =>
      exfalso
      unfold getTypeSymbol at hr'
      rw [List.findSome?_eq_none_iff] at hr'
      have hiq : (q.name, ['*']) ∈ v.pkg.imports := by
        rcases hq.2 with h | h
        · exact h
        · exact absurd h (hi _)
      have := hr' q (List.mem_cons_of_mem _ ((mem_importedOf hc.packages _ q).mpr ⟨hq.1, hiq⟩))
      rw [(typeSymbol_iff (hc.decls q hq.1) n _).mpr ⟨e, he, hen, rfl⟩] at this
      cases this
    | some r =>
      refine ⟨r, ?_, ?_⟩
      · unfold getSymbolIn
        rw [hr']
      · rcases getTypeSymbol_some hc hp hr' with ⟨e', he', hn', _⟩ | ⟨_, q', hq', hi', e', he', hn', rfl⟩
        · exact absurd hn' (hno e' he')
        · have hqq := hone q q' hq ⟨hq', .inl hi'⟩ ⟨e, he, hen⟩ ⟨e', he', hn'⟩
          subst hqq
          rw [inj_of_nodup_map (hc.decls q hq') he' he (hn'.trans hen.symm)]

/-- No declaration that other packages happen to be at has the name. -/
def NotStale (ps : List APackage) (v : Visit) (n : List Char) : Prop :=
  ∀ q ∈ ps, q ≠ v.pkg → (q.name, ['*']) ∈ v.pkg.imports → ∀ d ∈ q.decls, v.cur q.name = some d.name → ∀ s, (n, s) ∉ d.inside

/-- No enum has an item of that name. -/
def NoItem (ps : List APackage) (n : List Char) : Prop := ∀ q ∈ ps, ∀ e ∈ q.decls, ∀ i ∈ e.enumItems, i.name ≠ n

theorem getOtherSymbol_some {ps : List APackage} (hn : (ps.map APackage.name).Nodup) {order : EnumOrder} (ho : order.Ok ps) (fuel : Nat)
    (p : APackage) (hp : p ∈ ps) (n : List Char) (r : Found) (h : getOtherSymbol ps order fuel p n = some r) :
    ∃ q ∈ ps, ∃ e ∈ q.decls, e.kind = .enum ∧ ∃ i ∈ e.enumItems, i.name = n ∧ r = ⟨.item e i, n, q.name, []⟩ := by
  induction fuel generalizing p with
  | zero => cases h
  | succ fuel ih =>
    simp only [getOtherSymbol] at h
    cases hl : lastEntry (otherEntries (order p.name)) n with
    | some s =>
      rw [hl] at h
      cases h
      have := lastEntry_mem hl
      simp only [otherEntries, List.mem_flatMap, List.mem_map, Prod.mk.injEq] at this
      obtain ⟨e, he, i, hi, rfl, rfl⟩ := this
      have he' := (ho p hp).mem_iff.mp he
      simp only [List.mem_filter, beq_iff_eq] at he'
      exact ⟨p, hp, e, he'.1, he'.2, i, hi, rfl, rfl⟩
    | none =>
      rw [hl] at h
      obtain ⟨q, hq, hqr⟩ := List.exists_of_findSome?_eq_some h
      exact ih q ((mem_importedOf hn p q).mp hq).1 hqr

/-- **C76**: what is found for a name is what it refers to.  Missing: members that are named like a declaration, names of members of the
type that an imported package was evaluated last (`NotStale`), and names of items of enums (`NoItem`). -/
theorem C76_only_partial (ps : List APackage) (hc : NoClash ps) (ord : VisitOrder) (ho : ord.Ok ps) (order : EnumOrder) (hoe : order.Ok ps)
    (fuel : Nat) (v : Visit) (hv : v ∈ evaluateModel ord) (ht : ¬ v.decl.isTemplate) (n : List Char)
    (hs : NotShadowed ps v.pkg v.decl n) (hst : NotStale ps v n) (hit : NoItem ps n) (r : Found)
    (h : getSymbolIn ps order fuel v.cur v.pkg n = some r) : Refers ps v.pkg v.decl n r.sym := by
  obtain ⟨hp, hd⟩ := visit_declared ho hv
  unfold getSymbolIn at h
  cases hty : getTypeSymbol ps v.pkg n with
  | some r' =>
    rw [hty] at h
    cases h
    rcases getTypeSymbol_some hc hp hty with ⟨e, he, hn, rfl⟩ | ⟨hno, q, hq, hi, e, he, hn, rfl⟩
    · exact .own e (fun s hm => (hs ⟨s, hm⟩).1 e he hn) he hn
    · exact .imported q e (fun s hm => (hs ⟨s, hm⟩).2 q ⟨hq, .inl hi⟩ e he hn) hno ⟨hq, .inl hi⟩ he hn
  | none =>
    rw [hty] at h
    cases hcu : getCurrentSymbol ps v.cur v.pkg n with
    | some r' =>
      rw [hcu] at h
      cases h
      unfold getCurrentSymbol at hcu
      obtain ⟨q, hq, hqr⟩ := List.exists_of_findSome?_eq_some hcu
      cases hcq : v.cur q.name with
      | none => rw [hcq] at hqr; cases hqr
      | some c =>
        rw [hcq] at hqr
        have hqps : q ∈ ps := by
          rcases List.mem_cons.mp hq with rfl | hq
          · exact hp
          · exact ((mem_importedOf hc.packages _ q).mp hq).1
        obtain ⟨d, hdq, hdc, hk, hm, _⟩ := compoundSymbol_some (hc.decls q hqps) hqr
        have hm' := (scopeEntries_sublist d).subset hm
        by_cases hqp : q = v.pkg
        · subst hqp
          have : v.decl.kind = .struct ∨ v.decl.kind = .choice := by
            by_contra hno
            rw [not_or] at hno
            rw [visit_noscope ho hv hno.1 hno.2] at hcq
            cases hcq
          have hown := visit_own hv this ht
          rw [hown] at hcq
          have : d = v.decl := inj_of_nodup_map (hc.decls _ hp) hdq hd (by rw [hdc]; exact (Option.some.inj hcq).symm)
          exact .member _ (this ▸ hm')
        · rcases List.mem_cons.mp hq with rfl | hq
          · exact absurd rfl hqp
          · exact absurd hm' (hst q hqps hqp ((mem_importedOf hc.packages _ q).mp hq).2 d hdq (by rw [hcq, hdc]) _)
    | none =>
      rw [hcu] at h
      obtain ⟨q, hq, e, he, _, i, hi, hn, _⟩ := getOtherSymbol_some hc.packages hoe fuel _ hp n r h
      exact absurd hn (hit q hq e he i hi)

/-! ## Which expressions are evaluated -/

/-- The expressions inside a type: the length of a bit field and the arguments. -/
def InType : ATypeRef → AExpr → Prop
  | .mk _ _ _ _ _ args length, e => length = some e ∨ e ∈ args

/-- The expressions inside a field. -/
def InField (f : AField) (e : AExpr) : Prop :=
  InType f.type e ∨ f.initializer = some e ∨ f.constraint = some e ∨ f.optionalClause = some e ∨ ∃ a, f.array = some a ∧ a.length = some e

/-- The expressions that the code made for a declaration uses. -/
inductive Written : ADecl → AExpr → Prop
  | value (n : List Char) (t : ATypeRef) (e : AExpr) : Written (.const n t e) e
  | param (d : ADecl) (a : AParam) (e : AExpr) : (a.name, .param a) ∈ d.inside → InType a.type e → Written d e
  | field (d : ADecl) (f : AField) (e : AExpr) : (f.name, .field f) ∈ d.inside → InField f e → Written d e
  | function (d : ADecl) (g : AFunction) : (g.name, .function g) ∈ d.inside → Written d g.result
  | selector (n : List Char) (tps : List (List Char)) (ps : List AParam) (sel : AExpr) (cs : List AChoiceCase) (dc : Option AChoiceCase)
      (gs : List AFunction) : Written (.choice n tps ps sel cs dc gs) sel
  | label (n : List Char) (tps : List (List Char)) (ps : List AParam) (sel : AExpr) (cs : List AChoiceCase) (dc : Option AChoiceCase)
      (gs : List AFunction) (c : AChoiceCase) (e : AExpr) : c ∈ cs → e ∈ c.conditions → Written (.choice n tps ps sel cs dc gs) e
  | item (n : List Char) (t : ATypeRef) (is : List AItem) (i : AItem) (e : AExpr) : i ∈ is → i.value = some e → Written (.enum n t is) e
  | bit (n : List Char) (t : ATypeRef) (is : List AItem) (i : AItem) (e : AExpr) : i ∈ is → i.value = some e → Written (.bitmask n t is) e
  | enumType (n : List Char) (t : ATypeRef) (is : List AItem) (e : AExpr) : InType t e → Written (.enum n t is) e
  | bitmaskType (n : List Char) (t : ATypeRef) (is : List AItem) (e : AExpr) : InType t e → Written (.bitmask n t is) e

/-- The type that an enum or a bitmask is stored as. -/
def ADecl.storedAs : ADecl → Option ATypeRef
  | .enum _ t _ => some t
  | .bitmask _ t _ => some t
  | _ => none

theorem inType_exprs {t : ATypeRef} {e : AExpr} (h : InType t e) : e ∈ t.exprs := by
  cases t
  simp only [InType] at h
  simp only [ATypeRef.exprs, List.mem_append, Option.mem_toList]
  exact h

theorem inField_exprs {f : AField} {e : AExpr} (h : InField f e) : e ∈ f.exprs := by
  simp only [AField.exprs, List.mem_append, Option.mem_toList]
  rcases h with h | h | h | h | ⟨a, ha, h⟩
  · exact .inl (.inl (.inl (.inl (inType_exprs h))))
  · exact .inl (.inl (.inl (.inr h)))
  · exact .inl (.inr h)
  · exact .inl (.inl (.inr h))
  · right
    rw [ha]
    simpa using h

theorem visitDecls_all (ds : List (APackage × ADecl)) (cur : Cur) {p : APackage} {d : ADecl} (h : (p, d) ∈ ds) :
    ∃ v ∈ (visitDecls ds cur).1, v.pkg = p ∧ v.decl = d := by
  induction ds generalizing cur with
  | nil => cases h
  | cons x ds ih =>
    obtain ⟨p', d'⟩ := x
    rcases List.mem_cons.mp h with h | h
    · cases h
      exact ⟨_, List.mem_cons_self, rfl, rfl⟩
    · obtain ⟨v, hv, hv'⟩ := ih (d'.enter p'.name cur) h
      exact ⟨v, List.mem_cons_of_mem _ hv, hv'⟩

theorem visitKinds_all (ord : VisitOrder) (ks : List DeclKind) (cur : Cur) {p : APackage} {d : ADecl} {k : DeclKind} (hk : k ∈ ks)
    (h : (p, d) ∈ ord k) : ∃ v ∈ visitKinds ord ks cur, v.pkg = p ∧ v.decl = d := by
  induction ks generalizing cur with
  | nil => cases hk
  | cons k' ks ih =>
    simp only [visitKinds]
    rcases List.mem_cons.mp hk with rfl | hk
    · obtain ⟨v, hv, hv'⟩ := visitDecls_all (ord k) cur h
      exact ⟨v, List.mem_append_left _ hv, hv'⟩
    · obtain ⟨v, hv, hv'⟩ := ih (visitDecls (ord k') cur).2 hk
      exact ⟨v, List.mem_append_right _ hv, hv'⟩

/-- **C76**: every expression that is used is evaluated, in a visit of the declaration it is in.  Missing: the functions of choices, the
types that enums and bitmasks are stored as, and templates, whose copies are evaluated instead. -/
theorem C76_evaluated_partial (ps : List APackage) (ord : VisitOrder) (ho : ord.Ok ps) (p : APackage) (hp : p ∈ ps) (d : ADecl)
    (hd : d ∈ p.decls) (ht : ¬ d.isTemplate) (e : AExpr) (h : Written d e)
    (hf : d.kind = .choice → ∀ g : AFunction, (g.name, .function g) ∈ d.inside → e ≠ g.result)
    (hst : ∀ t, d.storedAs = some t → ¬ InType t e) :
    ∃ v ∈ evaluateModel ord, v.pkg = p ∧ v.decl = d ∧ e ∈ v.decl.evaluated := by
  have hin : d.kind ∈ evaluationOrder := by
    have aux : ∀ {n : List Char} {s : SSym}, (n, s) ∈ d.inside → d.kind ∈ evaluationOrder := by
      intro n s hm
      have := inside_kind hm
      simp only [List.mem_cons, List.not_mem_nil, or_false] at this
      rcases this with h | h | h <;> rw [h] <;> decide
    cases h with
    | param _ a _ hm => exact aux hm
    | field _ f _ hm => exact aux hm
    | function _ g hm => exact aux hm
    | _ => simp [ADecl.kind, evaluationOrder]
  obtain ⟨v, hv, hvp, hvd⟩ := visitKinds_all ord evaluationOrder (fun _ => none) hin ((ho _ p d).mpr ⟨hp, hd, rfl⟩)
  refine ⟨v, hv, hvp, hvd, ?_⟩
  rw [hvd]
  cases h with
  | value => simp [ADecl.evaluated]
  | param _ a _ hm he =>
    cases d with
    | struct n tps ps fs gs =>
      have ht' : tps = [] := by simpa [ADecl.isTemplate] using ht
      simp only [ADecl.inside, List.mem_append, List.mem_map, Prod.mk.injEq, reduceCtorEq, and_false, exists_false, or_false,
        SSym.param.injEq] at hm
      obtain ⟨a', ha', _, rfl⟩ := hm
      simp only [ADecl.evaluated, ht', ne_eq, not_true_eq_false, if_false, List.mem_append, List.mem_flatMap]
      exact .inl (.inl ⟨a', ha', inType_exprs he⟩)
    | union n tps ps fs gs =>
      have ht' : tps = [] := by simpa [ADecl.isTemplate] using ht
      simp only [ADecl.inside, List.mem_append, List.mem_map, Prod.mk.injEq, reduceCtorEq, and_false, exists_false, or_false,
        SSym.param.injEq] at hm
      obtain ⟨a', ha', _, rfl⟩ := hm
      simp only [ADecl.evaluated, ht', ne_eq, not_true_eq_false, if_false, List.mem_append, List.mem_flatMap]
      exact .inl (.inl ⟨a', ha', inType_exprs he⟩)
    | choice n tps ps sel cs dc gs =>
      have ht' : tps = [] := by simpa [ADecl.isTemplate] using ht
      simp only [ADecl.inside, List.mem_append, List.mem_map, Prod.mk.injEq, reduceCtorEq, and_false, exists_false, or_false,
        SSym.param.injEq] at hm
      obtain ⟨a', ha', _, rfl⟩ := hm
      simp only [ADecl.evaluated, ht', ne_eq, not_true_eq_false, if_false, List.mem_append, List.mem_flatMap]
      exact .inl (.inl (.inl (.inr ⟨a', ha', inType_exprs he⟩)))
    | _ => cases hm
  | field _ f _ hm he =>
    cases d with
    | struct n tps ps fs gs =>
      have ht' : tps = [] := by simpa [ADecl.isTemplate] using ht
      simp only [ADecl.inside, List.mem_append, List.mem_map, Prod.mk.injEq, reduceCtorEq, and_false, exists_false, or_false, false_or,
        SSym.field.injEq] at hm
      obtain ⟨a', ha', _, rfl⟩ := hm
      simp only [ADecl.evaluated, ht', ne_eq, not_true_eq_false, if_false, List.mem_append, List.mem_flatMap]
      exact .inl (.inr ⟨a', ha', inField_exprs he⟩)
    | union n tps ps fs gs =>
      have ht' : tps = [] := by simpa [ADecl.isTemplate] using ht
      simp only [ADecl.inside, List.mem_append, List.mem_map, Prod.mk.injEq, reduceCtorEq, and_false, exists_false, or_false, false_or,
        SSym.field.injEq] at hm
      obtain ⟨a', ha', _, rfl⟩ := hm
      simp only [ADecl.evaluated, ht', ne_eq, not_true_eq_false, if_false, List.mem_append, List.mem_flatMap]
      exact .inl (.inr ⟨a', ha', inField_exprs he⟩)
    | choice n tps ps sel cs dc gs =>
      have ht' : tps = [] := by simpa [ADecl.isTemplate] using ht
      simp only [ADecl.inside, List.mem_append, List.mem_map, Prod.mk.injEq, reduceCtorEq, and_false, exists_false, or_false, false_or,
        SSym.field.injEq] at hm
      obtain ⟨a', ha', _, rfl⟩ := hm
      simp only [ADecl.evaluated, ht', ne_eq, not_true_eq_false, if_false, List.mem_append, List.mem_flatMap]
      rcases ha' with ha' | ha'
      · exact .inl (.inl (.inr ⟨a', ha', inField_exprs he⟩))
      · right
        cases dc with
        | none => simp [AChoiceCase.fieldOf] at ha'
        | some c =>
          simp only [List.mem_flatMap]
          exact ⟨a', by simpa [AChoiceCase.fieldOf] using ha', inField_exprs he⟩
    | _ => cases hm
  | function _ g hm =>
    cases d with
    | struct n tps ps fs gs =>
      have ht' : tps = [] := by simpa [ADecl.isTemplate] using ht
      simp only [ADecl.inside, List.mem_append, List.mem_map, Prod.mk.injEq, reduceCtorEq, and_false, exists_false, or_false, false_or,
        SSym.function.injEq] at hm
      obtain ⟨a', ha', _, rfl⟩ := hm
      simp only [ADecl.evaluated, ht', ne_eq, not_true_eq_false, if_false, List.mem_append, List.mem_map]
      exact .inr ⟨a', ha', rfl⟩
    | union n tps ps fs gs =>
      have ht' : tps = [] := by simpa [ADecl.isTemplate] using ht
      simp only [ADecl.inside, List.mem_append, List.mem_map, Prod.mk.injEq, reduceCtorEq, and_false, exists_false, or_false, false_or,
        SSym.function.injEq] at hm
      obtain ⟨a', ha', _, rfl⟩ := hm
      simp only [ADecl.evaluated, ht', ne_eq, not_true_eq_false, if_false, List.mem_append, List.mem_map]
      exact .inr ⟨a', ha', rfl⟩
    | choice => exact absurd rfl (hf rfl g hm)
    | _ => cases hm
  | selector n tps =>
    have ht' : tps = [] := by simpa [ADecl.isTemplate] using ht
    simp [ADecl.evaluated, ht']
  | label n tps ps sel cs dc gs c _ hc he =>
    have ht' : tps = [] := by simpa [ADecl.isTemplate] using ht
    simp only [ADecl.evaluated, ht', ne_eq, not_true_eq_false, if_false, List.mem_append, List.mem_flatMap]
    exact .inl (.inr ⟨c, hc, he⟩)
  | item n t is i _ hi he => exact List.mem_filterMap.mpr ⟨i, hi, he⟩
  | bit n t is i _ hi he => exact List.mem_filterMap.mpr ⟨i, hi, he⟩
  | enumType n t is _ he => exact absurd he (hst t rfl)
  | bitmaskType n t is _ he => exact absurd he (hst t rfl)

/-! ## What goes wrong -/

/-- **C76** fails for members named like a declaration: the declaration is found, wherever the expression is. -/
theorem C76_violated_shadow (ps : List APackage) (hc : NoClash ps) (p : APackage) (hp : p ∈ ps) (e : ADecl) (he : e ∈ p.decls)
    (order : EnumOrder) (fuel : Nat) (cur : Cur) :
    getSymbolIn ps order fuel cur p e.name = some ⟨.decl e, e.name, p.name, []⟩ := by
  unfold getSymbolIn
  rw [getTypeSymbol_own (hc.decls _ hp) he]

/-- **C76** fails for unions: in their expressions no name stands for a member of anything. -/
theorem C76_violated_union (ps : List APackage) (hc : NoClash ps) (ord : VisitOrder) (ho : ord.Ok ps) (order : EnumOrder)
    (hoe : order.Ok ps) (fuel : Nat) (v : Visit) (hv : v ∈ evaluateModel ord) (hu : v.decl.kind = .union) (n : List Char) (r : Found)
    (h : getSymbolIn ps order fuel v.cur v.pkg n = some r) : (∃ d, r.sym = .decl d) ∨ ∃ e i, r.sym = .item e i := by
  obtain ⟨hp, hd⟩ := visit_declared ho hv
  unfold getSymbolIn at h
  cases hty : getTypeSymbol ps v.pkg n with
  | some r' =>
    rw [hty] at h
    cases h
    left
    rcases getTypeSymbol_some hc hp hty with ⟨e, _, _, rfl⟩ | ⟨_, q, _, _, e, _, _, rfl⟩ <;> exact ⟨e, rfl⟩
  | none =>
    rw [hty] at h
    have hnone : getCurrentSymbol ps v.cur v.pkg n = none := by
      unfold getCurrentSymbol
      rw [List.findSome?_eq_none_iff]
      intro q _
      rw [visit_noscope ho hv (by rw [hu]; decide) (by rw [hu]; decide)]
    rw [hnone] at h
    obtain ⟨q, _, e, _, _, i, _, _, rfl⟩ := getOtherSymbol_some hc.packages hoe fuel _ hp n r h
    exact .inr ⟨e, i, rfl⟩

/-- **C76** fails for the default case and the functions of choices: their names are not found inside the choice. -/
theorem C76_violated_choice (ps : List APackage) (hc : NoClash ps) (ord : VisitOrder) (ho : ord.Ok ps) (order : EnumOrder)
    (hoe : order.Ok ps) (fuel : Nat) (v : Visit) (hv : v ∈ evaluateModel ord) (ht : ¬ v.decl.isTemplate) (n : List Char)
    (nm : List Char) (tps : List (List Char)) (as : List AParam) (sel : AExpr) (cs : List AChoiceCase) (dc : Option AChoiceCase)
    (gs : List AFunction) (hd' : v.decl = .choice nm tps as sel cs dc gs)
    (hn : n ∈ (AChoiceCase.fieldOf dc).map AField.name ∨ n ∈ gs.map AFunction.name)
    (hs : NotShadowed ps v.pkg v.decl n) (hst : NotStale ps v n) (hit : NoItem ps n) :
    getSymbolIn ps order fuel v.cur v.pkg n = none := by
  obtain ⟨hp, hd⟩ := visit_declared ho hv
  have hmem : ∃ s, (n, s) ∈ v.decl.inside ∧ ∀ s', (n, s') ∉ v.decl.scopeEntries := by
    have hnd := hc.members _ hp _ hd
    rw [hd'] at hnd ⊢
    simp only [ADecl.inside, List.map_append, ADecl.scopeEntries, List.mem_append, List.map_map] at hnd ⊢
    rcases hn with hn | hn
    · obtain ⟨f, hf, rfl⟩ := List.mem_map.mp hn
      refine ⟨.field f, .inl (.inr (.inr (List.mem_map_of_mem hf))), fun s' hs' => ?_⟩
      have h1 : f.name ∈ ((AChoiceCase.fieldOf dc).map (Prod.fst ∘ fun f : AField => (f.name, SSym.field f))) :=
        List.mem_map.mpr ⟨f, hf, rfl⟩
      rw [← List.append_assoc] at hnd
      have hdis := (List.nodup_append.mp (List.nodup_append.mp hnd).1).2.2
      refine hdis f.name ?_ f.name h1 rfl
      rcases hs' with hs' | hs' <;> obtain ⟨x, hx, hxe⟩ := List.mem_map.mp hs'
      · exact List.mem_append_left _ (List.mem_map.mpr ⟨x, hx, congrArg Prod.fst hxe⟩)
      · exact List.mem_append_right _ (List.mem_map.mpr ⟨x, hx, congrArg Prod.fst hxe⟩)
    · obtain ⟨g, hg, rfl⟩ := List.mem_map.mp hn
      refine ⟨.function g, .inr (List.mem_map_of_mem hg), fun s' hs' => ?_⟩
      have h1 : g.name ∈ (gs.map (Prod.fst ∘ fun g : AFunction => (g.name, SSym.function g))) :=
        List.mem_map.mpr ⟨g, hg, rfl⟩
      have hdis := (List.nodup_append.mp hnd).2.2
      refine hdis g.name ?_ g.name h1 rfl
      rcases hs' with hs' | hs' <;> obtain ⟨x, hx, hxe⟩ := List.mem_map.mp hs'
      · exact List.mem_append_left _ (List.mem_map.mpr ⟨x, hx, congrArg Prod.fst hxe⟩)
      · exact List.mem_append_right _ (List.mem_append_left _ (List.mem_map.mpr ⟨x, hx, congrArg Prod.fst hxe⟩))
  obtain ⟨s, hm, hno⟩ := hmem
  cases h : getSymbolIn ps order fuel v.cur v.pkg n with
  | none => rfl
  | some r =>
    exfalso
    obtain ⟨h1, h2⟩ := hs ⟨s, hm⟩
    have hty := getTypeSymbol_none hc hp h1 fun q hq hi => h2 q ⟨hq, .inl hi⟩
    unfold getSymbolIn at h
    rw [hty] at h
    have hcu : getCurrentSymbol ps v.cur v.pkg n = none := by
      cases hcu : getCurrentSymbol ps v.cur v.pkg n with
      | none => rfl
      | some r' =>
        exfalso
        unfold getCurrentSymbol at hcu
        obtain ⟨q, hq, hqr⟩ := List.exists_of_findSome?_eq_some hcu
        cases hcq : v.cur q.name with
        | none => rw [hcq] at hqr; cases hqr
        | some c =>
          rw [hcq] at hqr
          have hqps : q ∈ ps := by
            rcases List.mem_cons.mp hq with rfl | hq
            · exact hp
            · exact ((mem_importedOf hc.packages _ q).mp hq).1
          obtain ⟨d, hdq, hdc, hk, hm', _⟩ := compoundSymbol_some (hc.decls q hqps) hqr
          by_cases hqp : q = v.pkg
          · subst hqp
            have hown := visit_own hv (.inr (by rw [hd']; rfl)) ht
            rw [hown] at hcq
            have : d = v.decl := inj_of_nodup_map (hc.decls _ hp) hdq hd (by rw [hdc]; exact (Option.some.inj hcq).symm)
            exact hno _ (this ▸ hm')
          · rcases List.mem_cons.mp hq with rfl | hq
            · exact absurd rfl hqp
            · exact absurd ((scopeEntries_sublist d).subset hm')
                (hst q hqps hqp ((mem_importedOf hc.packages _ q).mp hq).2 d hdq (by rw [hcq, hdc]) _)
    rw [hcu] at h
    obtain ⟨q, hq, e, he, _, i, hi, hn, _⟩ := getOtherSymbol_some hc.packages hoe fuel _ hp n r h
    exact absurd hn (hit q hq e he i hi)

/-- The order in which everything is written. -/
def declOrder (ps : List APackage) : VisitOrder := fun k =>
  ps.flatMap fun p => (p.decls.filter fun d => d.kind == k).map fun d => (p, d)

theorem declOrder_ok (ps : List APackage) : (declOrder ps).Ok ps := by
  intro k p d
  simp only [declOrder, List.mem_flatMap, List.mem_map, List.mem_filter, beq_iff_eq, Prod.mk.injEq]
  constructor
  · rintro ⟨p', hp, d', ⟨h1, h2⟩, rfl, rfl⟩
    exact ⟨hp, h1, h2⟩
  · rintro ⟨hp, h1, h2⟩
    exact ⟨p, hp, d, ⟨h1, h2⟩, rfl, rfl⟩

/-- The enums as they are written. -/
def writtenEnums (ps : List APackage) : EnumOrder := fun n =>
  match getPackage ps n with
  | none => []
  | some p => p.decls.filter fun d => d.kind == .enum

theorem writtenEnums_ok {ps : List APackage} (h : (ps.map APackage.name).Nodup) : (writtenEnums ps).Ok ps := by
  intro p hp
  unfold writtenEnums
  rw [(getPackage_iff h p.name p).mpr ⟨hp, rfl⟩]

/-- The same, from the last to the first. -/
def writtenEnumsReversed (ps : List APackage) : EnumOrder := fun n => (writtenEnums ps n).reverse

theorem writtenEnumsReversed_ok {ps : List APackage} (h : (ps.map APackage.name).Nodup) : (writtenEnumsReversed ps).Ok ps :=
  fun p hp => (List.reverse_perm _).trans (writtenEnums_ok h p hp)

namespace ScopeExample

def u8 : ATypeRef := .mk true [] "uint8".toList 0 [] [] none
def named (pkg n : String) : ATypeRef := .mk false pkg.toList n.toList 0 [] [] none
def id (n : String) : AExpr := .leaf .id n.toList
def plain (n : String) (t : ATypeRef) : AField := ⟨n.toList, false, 0, t, none, none, none, none⟩
def x := plain "x" u8
/-- `uint8 y : y < limit;` -/
def y : AField := { plain "y" u8 with constraint := some (.two .lt [] (id "y") (id "limit")) }
/-- `struct S(uint8 n) { uint8 x; uint8 y : y < limit; };` -/
def s : ADecl := .struct "S".toList [] [⟨"n".toList, u8⟩] [x, y] []
/-- `struct T { uint8 z; };` -/
def t : ADecl := .struct "T".toList [] [] [plain "z" u8] []
def limit : ADecl := .const "limit".toList u8 (.leaf .decimalLiteral "7".toList)
def red : AItem := ⟨"RED".toList, none⟩
def color : ADecl := .enum "Color".toList u8 [red]
def lamp : ADecl := .enum "Lamp".toList u8 [red]
def b : APackage := ⟨"b".toList, [], [t, limit]⟩
def a : APackage := ⟨"a".toList, [("b".toList, ['*'])], [s, color, lamp]⟩
def ps : List APackage := [b, a]

theorem noClash : NoClash ps where
  packages := by decide
  decls := by
    intro p hp
    simp only [ps, List.mem_cons, List.not_mem_nil, or_false] at hp
    rcases hp with rfl | rfl <;> decide
  members := by
    intro p hp d hd
    simp only [ps, List.mem_cons, List.not_mem_nil, or_false] at hp
    rcases hp with rfl | rfl
    · simp only [b, List.mem_cons, List.not_mem_nil, or_false] at hd
      rcases hd with rfl | rfl <;> decide
    · simp only [a, List.mem_cons, List.not_mem_nil, or_false] at hd
      rcases hd with rfl | rfl | rfl <;> decide

/-- The visit of `S` in the order as written: `T` was visited before. -/
def v : Visit := ⟨a, s, fun q => if q = "a".toList then some "S".toList else if q = "b".toList then some "T".toList else none⟩

theorem visited : v ∈ evaluateModel (declOrder ps) := by
  have : evaluateModel (declOrder ps) = [⟨b, limit, fun _ => none⟩, ⟨a, color, fun _ => none⟩, ⟨a, lamp, fun _ => none⟩,
      ⟨b, t, fun q => if q = "b".toList then some "T".toList else none⟩, v] := rfl
  rw [this]
  simp

theorem notShadowed (n : List Char) : NotShadowed ps a s n := by
  rintro ⟨σ, hσ⟩
  have h1 : n ∈ s.inside.map Prod.fst := List.mem_map_of_mem (f := Prod.fst) hσ
  have h2 : n ∉ (b.decls ++ a.decls).map ADecl.name := by
    clear hσ
    revert n
    decide
  refine ⟨fun e he hen => h2 (hen ▸ List.mem_map_of_mem (f := ADecl.name) (List.mem_append_right _ he)), fun q hq e he hen => ?_⟩
  have := hq.1
  simp only [ps, List.mem_cons, List.not_mem_nil, or_false] at this
  rcases this with rfl | rfl
  · exact h2 (hen ▸ List.mem_map_of_mem (f := ADecl.name) (List.mem_append_left _ he))
  · exact h2 (hen ▸ List.mem_map_of_mem (f := ADecl.name) (List.mem_append_right _ he))

/-- `y` and `limit` in the constraint of `y`. -/
example : (∃ r, getSymbolIn ps (writtenEnums ps) 9 v.cur v.pkg "y".toList = some r ∧ r.sym = .field y) ∧
    ∃ r, getSymbolIn ps (writtenEnums ps) 9 v.cur v.pkg "limit".toList = some r ∧ r.sym = .decl limit := by
  have hone : ∀ n q q', ImportsName ps v.pkg n q → ImportsName ps v.pkg n q' → (∃ e ∈ q.decls, e.name = n) →
      (∃ e ∈ q'.decls, e.name = n) → n ≠ ['*'] → q = q' := by
    have hb : ∀ n q, n ≠ ['*'] → ImportsName ps v.pkg n q → q = b := by
      intro n q hn hq
      rcases hq with ⟨hq, h⟩
      simp only [ps, List.mem_cons, List.not_mem_nil, or_false] at hq
      rcases hq with rfl | rfl
      · rfl
      · simp [v, a] at h
    intro n q q' h h' _ _ hn
    rw [hb n q hn h, hb n q' hn h']
  have hi : ∀ n q, n ≠ ['*'] → (q, n) ∉ v.pkg.imports := by
    intro n q hn h
    simp only [v, a, List.mem_cons, Prod.mk.injEq, List.not_mem_nil, or_false] at h
    exact hn h.2
  refine ⟨?_, ?_⟩
  · exact C76_found_partial ps noClash _ (declOrder_ok ps) _ 9 v visited (by simp [v, s, ADecl.isTemplate]) _ trivial
      (notShadowed _) (fun q => hi _ q (by decide)) (fun q q' h1 h2 h3 h4 => hone _ q q' h1 h2 h3 h4 (by decide)) _
      (.member _ (by simp [v, s, ADecl.inside, y, plain]))
  · refine C76_found_partial ps noClash _ (declOrder_ok ps) _ 9 v visited (by simp [v, s, ADecl.isTemplate]) _ trivial
      (notShadowed _) (fun q => hi _ q (by decide)) (fun q q' h1 h2 h3 h4 => hone _ q q' h1 h2 h3 h4 (by decide)) _
      (.imported b limit (fun σ h => ?_) (fun e he hen => ?_) ⟨by simp [ps], .inl (by simp [v, a, b])⟩ (by simp [b]) rfl)
    · have : "limit".toList ∈ s.inside.map Prod.fst := List.mem_map_of_mem (f := Prod.fst) h
      revert this
      decide
    · have := List.mem_map_of_mem (f := ADecl.name) he
      rw [hen] at this
      revert this
      decide

/-- What is found for `y` is what it refers to. -/
example (r : Found) (h : getSymbolIn ps (writtenEnums ps) 9 v.cur v.pkg "y".toList = some r) : Refers ps a s "y".toList r.sym := by
  refine C76_only_partial ps noClash _ (declOrder_ok ps) _ (writtenEnums_ok noClash.packages) 9 v visited (by simp [v, s, ADecl.isTemplate]) _
    (notShadowed _) ?_ ?_ r h
  · intro q hq hqv hi d hd hcur σ hσ
    simp only [ps, List.mem_cons, List.not_mem_nil, or_false] at hq
    rcases hq with rfl | rfl
    · have hdt : d.name = "T".toList := by
        have : v.cur b.name = some "T".toList := rfl
        rw [this] at hcur
        exact (Option.some.inj hcur).symm
      have : d = t := inj_of_nodup_map (noClash.decls b (by simp [ps])) hd (by simp [b]) hdt
      subst this
      have : "y".toList ∈ t.inside.map Prod.fst := List.mem_map_of_mem (f := Prod.fst) hσ
      revert this
      decide
    · exact absurd rfl hqv
  · intro q hq e he i hi hn
    have : "y".toList ∉ ((b.decls ++ a.decls).flatMap ADecl.enumItems).map AItem.name := by decide
    refine this (hn ▸ List.mem_map_of_mem (f := AItem.name) (List.mem_flatMap.mpr ⟨e, ?_, hi⟩))
    simp only [ps, List.mem_cons, List.not_mem_nil, or_false] at hq
    rcases hq with rfl | rfl
    · exact List.mem_append_left _ he
    · exact List.mem_append_right _ he

/-- `w` means nothing, and nothing is found for it. -/
example (r : Found) : getSymbolIn ps (writtenEnums ps) 9 v.cur v.pkg "w".toList ≠ some r := by
  have : getSymbolIn ps (writtenEnums ps) 9 v.cur v.pkg "w".toList = none := rfl
  rw [this]
  simp

theorem means_nothing (n : List Char) (h1 : n ∉ s.inside.map Prod.fst) (h2 : n ∉ (b.decls ++ a.decls).map ADecl.name) (σ : SSym) :
    ¬ Refers ps a s n σ := by
  intro h
  cases h with
  | member _ hm => exact h1 (List.mem_map_of_mem (f := Prod.fst) hm)
  | own e _ he hen => exact h2 (hen ▸ List.mem_map_of_mem (f := ADecl.name) (List.mem_append_right _ he))
  | imported q e _ _ hq he hen =>
    have := hq.1
    simp only [ps, List.mem_cons, List.not_mem_nil, or_false] at this
    rcases this with rfl | rfl
    · exact h2 (hen ▸ List.mem_map_of_mem (f := ADecl.name) (List.mem_append_left _ he))
    · exact h2 (hen ▸ List.mem_map_of_mem (f := ADecl.name) (List.mem_append_right _ he))

end ScopeExample

open ScopeExample in
/-- **C76** fails across packages: `z`, which is a field of a struct of an imported package, is found in a struct that has no `z`, if the
other struct is the last of its package that was evaluated.  In another order it is not found. -/
theorem C76_violated_stale : ∃ ps : List APackage, NoClash ps ∧ ∃ (p : APackage) (d : ADecl) (n : List Char), p ∈ ps ∧ d ∈ p.decls ∧
    (∀ s, ¬ Refers ps p d n s) ∧
    (∃ ord : VisitOrder, ord.Ok ps ∧ ∃ v ∈ evaluateModel ord, v.pkg = p ∧ v.decl = d ∧
      ∀ order fuel, ∃ f, (getSymbolIn ps order fuel v.cur p n).map Found.sym = some (.field f)) ∧
    ∃ ord : VisitOrder, ord.Ok ps ∧ ∃ v ∈ evaluateModel ord, v.pkg = p ∧ v.decl = d ∧
      ∃ order : EnumOrder, order.Ok ps ∧ ∀ fuel, getSymbolIn ps order fuel v.cur p n = none := by
  refine ⟨ps, noClash, a, s, "z".toList, by simp [ps], by simp [a], means_nothing _ (by decide) (by decide),
    ⟨declOrder ps, declOrder_ok ps, v, visited, rfl, rfl, fun order fuel => ⟨plain "z" u8, rfl⟩⟩,
    ⟨declOrder [a, b], ?_, ⟨a, s, fun q => if q = "a".toList then some "S".toList else none⟩, ?_, rfl, rfl, writtenEnums ps,
      writtenEnums_ok noClash.packages, ?_⟩⟩
  · intro k p d
    rw [declOrder_ok [a, b] k p d]
    simp only [ps, List.mem_cons, List.not_mem_nil, or_false]
    rw [or_comm]
  · have : evaluateModel (declOrder [a, b]) = [⟨b, limit, fun _ => none⟩, ⟨a, color, fun _ => none⟩, ⟨a, lamp, fun _ => none⟩,
        ⟨a, s, fun q => if q = "a".toList then some "S".toList else none⟩,
        ⟨b, t, fun q => if q = "b".toList then some "T".toList else if q = "a".toList then some "S".toList else none⟩] := rfl
    rw [this]
    simp
  · intro fuel
    rcases fuel with _ | _ | fuel <;> rfl

open ScopeExample in
/-- **C76** fails for the items of enums: the name of an item is found without the enum, and which of two items of that name it is depends
on the order in which a map is traversed. -/
theorem C76_violated_items : ∃ ps : List APackage, NoClash ps ∧ ∃ ord : VisitOrder, ord.Ok ps ∧ ∃ v ∈ evaluateModel ord, ∃ n : List Char,
    (∀ s, ¬ Refers ps v.pkg v.decl n s) ∧ ∃ order order' : EnumOrder, order.Ok ps ∧ order'.Ok ps ∧ ∀ fuel,
      ∃ e e' i, e.name ≠ e'.name ∧
        (getSymbolIn ps order (fuel + 1) v.cur v.pkg n).map Found.sym = some (.item e i) ∧
        (getSymbolIn ps order' (fuel + 1) v.cur v.pkg n).map Found.sym = some (.item e' i) := by
  refine ⟨ps, noClash, declOrder ps, declOrder_ok ps, v, visited, "RED".toList, means_nothing _ (by decide) (by decide),
    writtenEnums ps, writtenEnumsReversed ps, writtenEnums_ok noClash.packages, writtenEnumsReversed_ok noClash.packages, fun fuel =>
    ⟨lamp, color, red, by decide, rfl, rfl⟩⟩

open ScopeExample in
/-- **C76** fails for functions of choices and for types that enums are stored as: these expressions are never evaluated, so that the names
in them mean nothing. -/
theorem C76_violated_evaluated :
    (∃ (ps : List APackage) (p : APackage) (d : ADecl) (e : AExpr), p ∈ ps ∧ d ∈ p.decls ∧ ¬ d.isTemplate ∧ d.kind = .choice ∧ Written d e ∧
      ∀ ord : VisitOrder, ord.Ok ps → ∀ v ∈ evaluateModel ord, e ∉ v.decl.evaluated) ∧
    ∃ (ps : List APackage) (p : APackage) (d : ADecl) (e : AExpr), p ∈ ps ∧ d ∈ p.decls ∧ d.kind = .enum ∧ Written d e ∧
      ∀ ord : VisitOrder, ord.Ok ps → ∀ v ∈ evaluateModel ord, e ∉ v.decl.evaluated := by
  constructor
  · let d : ADecl := .choice "C".toList [] [⟨"n".toList, u8⟩] (id "n") [⟨[.leaf .decimalLiteral "1".toList], some x⟩] none
      [⟨"twice".toList, u8, .two .plus [] (id "x") (id "x")⟩]
    let p : APackage := ⟨"a".toList, [], [d]⟩
    refine ⟨[p], p, d, .two .plus [] (id "x") (id "x"), by simp, by simp [p], by simp [d, ADecl.isTemplate], rfl,
      .function d ⟨"twice".toList, u8, .two .plus [] (id "x") (id "x")⟩ (by simp [d, ADecl.inside]), ?_⟩
    intro ord ho v hv
    obtain ⟨hp, hd⟩ := visit_declared ho hv
    have hvp : v.pkg = p := by simpa using hp
    have hvd : v.decl = d := by
      rw [hvp] at hd
      simpa [p] using hd
    rw [hvd]
    decide
  · let d : ADecl := .enum "E".toList (.mk true [] "bit".toList 0 [] [] (some (id "N"))) [red]
    let p : APackage := ⟨"a".toList, [], [d]⟩
    refine ⟨[p], p, d, id "N", by simp, by simp [p], rfl, .enumType _ _ _ _ (.inl rfl), ?_⟩
    intro ord ho v hv
    obtain ⟨hp, hd⟩ := visit_declared ho hv
    have hvp : v.pkg = p := by simpa using hp
    have hvd : v.decl = d := by
      rw [hvp] at hd
      simpa [p] using hd
    rw [hvd]
    decide

open ScopeExample in
/-- The constraint of `y` is evaluated. -/
example : ∃ v ∈ evaluateModel (declOrder ps), v.pkg = a ∧ v.decl = s ∧ (.two .lt [] (ScopeExample.id "y") (ScopeExample.id "limit")) ∈ v.decl.evaluated :=
  C76_evaluated_partial ps _ (declOrder_ok ps) a (by simp [ps]) s (by simp [a]) (by simp [s, ADecl.isTemplate]) _
    (.field s y _ (by simp [s, ADecl.inside]) (.inr (.inr (.inl rfl)))) (by intro h; cases h) (by intro t h; cases h)

end Verif
