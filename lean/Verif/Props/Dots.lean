import Verif.Props.Scope

/-!
# C77: dot expressions, C78: labels of choices

The specification follows the types: what is behind a dot is a member of the type of what is before it, or an item of the enum or value of
the bitmask that is named before it.
-/

namespace Verif

/-- The type that a reference stands for, through `k - 1` subtypes: a builtin type, or a declared one. -/
inductive TypeStands (ps : List APackage) : Nat → ATypeRef → SSym → Prop
  | builtin (t : ATypeRef) : t.isBuiltin = true → TypeStands ps 0 t (.type t)
  | decl (t : ATypeRef) (q : APackage) (d : ADecl) : t.isBuiltin = false → q ∈ ps → q.name = t.pkg → d ∈ q.decls → d.name = t.name →
      d.kind ∈ [DeclKind.enum, .bitmask, .struct, .union, .choice] → TypeStands ps 1 t (.decl d)
  | sub (k : Nat) (t : ATypeRef) (q : APackage) (n : List Char) (t' : ATypeRef) (s : SSym) : t.isBuiltin = false → q ∈ ps → q.name = t.pkg →
      .subtype n t' ∈ q.decls → n = t.name → TypeStands ps k t' s → TypeStands ps (k + 1) t s

/-- A field or parameter, with its type. -/
inductive HasType : SSym → ATypeRef → Prop
  | field (f : AField) : HasType (.field f) f.type
  | param (a : AParam) : HasType (.param a) a.type

/-- A type by its name. -/
inductive NamesType (ps : List APackage) : SSym → ADecl → Prop
  | self (d : ADecl) : NamesType ps (.decl d) d
  | sub (k : Nat) (n : List Char) (t : ATypeRef) (d : ADecl) : k ≤ 100 → TypeStands ps k t (.decl d) → NamesType ps (.decl (.subtype n t)) d

/-- The values of a bitmask. -/
def ADecl.bits : ADecl → List AItem
  | .bitmask _ _ values => values
  | _ => []

/-- What `e` stands for in an expression of declaration `d` of package `p`, if it is a name with names behind dots.  Constants, which stand for
their value, and `instantiate` declarations are left out.  Only members for which `ok` holds are followed. -/
inductive Means (ok : ADecl → List Char → Prop) (ps : List APackage) (p : APackage) (d : ADecl) : AExpr → SSym → Prop
  | name (n : List Char) (s : SSym) : Refers ps p d n s → (∀ c t e, s ≠ .decl (.const c t e)) →
      (∀ c t, s ≠ .decl (.instantiate c t)) → Means ok ps p d (.leaf .id n) s
  | item (a : AExpr) (i : AItem) (s : SSym) (e : ADecl) : Means ok ps p d a s → NamesType ps s e → i ∈ e.enumItems →
      Means ok ps p d (.two .dot [] a (.leaf .unevaluatable i.name)) (.item e i)
  | value (a : AExpr) (i : AItem) (s : SSym) (e : ADecl) : Means ok ps p d a s → NamesType ps s e → i ∈ e.bits →
      Means ok ps p d (.two .dot [] a (.leaf .unevaluatable i.name)) (.value e i)
  | member (a : AExpr) (n : List Char) (s : SSym) (t : ATypeRef) (k : Nat) (e : ADecl) (m : SSym) : Means ok ps p d a s → HasType s t → k ≤ 100 →
      TypeStands ps k t (.decl e) → (n, m) ∈ e.inside → ok e n →
      Means ok ps p d (.two .dot [] a (.leaf .unevaluatable n)) m

/-- A package knows another: it is the same or imported. -/
def Sees (p q : APackage) : Prop := q = p ∨ (q.name, ['*']) ∈ p.imports

/-- A declaration uses a type for a member, or is another name of it. -/
inductive UsesType : ADecl → ATypeRef → Prop
  | sub (n : List Char) (t : ATypeRef) : UsesType (.subtype n t) t
  | member (d : ADecl) (n : List Char) (s : SSym) (t : ATypeRef) : (n, s) ∈ d.inside → HasType s t → UsesType d t

/-- What a package has to know.  References are bound (C71), no more than a hundred subtypes deep, package `p` imports all packages that
the members lead to, and among all these there is one type of each name. -/
structure Knows (ps : List APackage) (p : APackage) : Prop where
  named : ∀ q ∈ ps, q.name ≠ []
  bound : ∀ q ∈ ps, Sees p q → ∀ d ∈ q.decls, ∀ t, UsesType d t → t.isBuiltin = false → ∃ q' ∈ ps, q'.name = t.pkg ∧ Sees q q' ∧ Sees p q'
  stands : ∀ q ∈ ps, Sees p q → ∀ d ∈ q.decls, ∀ t, UsesType d t → ∃ k ≤ 100, ∃ s, TypeStands ps k t s
  unique : ∀ q ∈ ps, ∀ q' ∈ ps, Sees p q → Sees p q' → ∀ d ∈ q.decls, ∀ d' ∈ q'.decls, d.name = d'.name → q = q'
  items : ∀ q ∈ ps, ∀ d ∈ q.decls, (d.enumItems.map AItem.name).Nodup ∧ (d.bits.map AItem.name).Nodup

/-! ## Lemmas -/

theorem scopeOf_sees {ps : List APackage} (h : (ps.map APackage.name).Nodup) {q q' : APackage} (hq : q ∈ ps) (hq' : q' ∈ ps)
    (hs : Sees q q') (hn : q'.name ≠ []) (fuel : Nat) : scopeOf ps (fuel + 1) q q'.name = some q' := by
  unfold scopeOf
  rw [if_neg hn]
  by_cases he : q'.name = q.name
  · rw [if_pos he, inj_of_nodup_map h hq' hq he]
  · rw [if_neg he]
    have hi : q' ∈ importedOf ps q := by
      rcases hs with rfl | hs
      · exact absurd rfl he
      · exact (mem_importedOf h q q').mpr ⟨hq', hs⟩
    cases hf : (importedOf ps q).find? (fun r => r.name == q'.name) with
    | none =>
      have := List.find?_eq_none.mp hf q' hi
      simp at this
    | some r =>
      have hr : r.name = q'.name := by simpa using List.find?_some hf
      have hrp := ((mem_importedOf h q r).mp (List.mem_of_find?_eq_some hf)).1
      rw [inj_of_nodup_map h hrp hq' hr]

theorem findSome_unique {α β : Type} {l : List α} {f : α → Option β} {x : α} {y : β} (hx : x ∈ l) (hy : f x = some y)
    (hu : ∀ x' ∈ l, ∀ y', f x' = some y' → x' = x) : l.findSome? f = some y := by
  cases h : l.findSome? f with
  | none =>
    rw [List.findSome?_eq_none_iff] at h
    rw [h x hx] at hy
    cases hy
  | some z =>
    obtain ⟨x', hx', hz⟩ := List.exists_of_findSome?_eq_some h
    rw [hu x' hx' z hz, hy] at hz
    exact hz.symm

theorem mem_seen {ps : List APackage} (h : (ps.map APackage.name).Nodup) {p q : APackage} (hp : p ∈ ps) :
    q ∈ p :: importedOf ps p ↔ q ∈ ps ∧ Sees p q := by
  rw [List.mem_cons, mem_importedOf h]
  unfold Sees
  constructor
  · rintro (rfl | ⟨h1, h2⟩)
    · exact ⟨hp, .inl rfl⟩
    · exact ⟨h1, .inr h2⟩
  · rintro ⟨h1, rfl | h2⟩
    · exact .inl rfl
    · exact .inr ⟨h1, h2⟩

theorem getSymbolIn_seen {ps : List APackage} (hc : NoClash ps) {p q : APackage} (hp : p ∈ ps) (hk : Knows ps p) (hq : q ∈ ps)
    (hs : Sees p q) {d : ADecl} (hd : d ∈ q.decls) (order : EnumOrder) (fuel : Nat) (cur : Cur) :
    getSymbolIn ps order fuel cur p d.name = some ⟨.decl d, d.name, q.name, []⟩ := by
  have : getTypeSymbol ps p d.name = some ⟨.decl d, d.name, q.name, []⟩ := by
    unfold getTypeSymbol
    refine findSome_unique ((mem_seen hc.packages hp).mpr ⟨hq, hs⟩) ((typeSymbol_iff (hc.decls q hq) _ _).mpr ⟨d, hd, rfl, rfl⟩) ?_
    intro q' hq' r hr
    obtain ⟨h1, h2⟩ := (mem_seen hc.packages hp).mp hq'
    obtain ⟨e, he, hen, _⟩ := (typeSymbol_iff (hc.decls q' h1) _ _).mp hr
    exact hk.unique q' h1 q hq h2 hs e he d hd hen
  unfold getSymbolIn
  rw [this]

theorem getSymbolIn_own {ps : List APackage} (hc : NoClash ps) {q : APackage} (hq : q ∈ ps) {d : ADecl} (hd : d ∈ q.decls)
    (order : EnumOrder) (fuel : Nat) (cur : Cur) :
    getSymbolIn ps order fuel cur q d.name = some ⟨.decl d, d.name, q.name, []⟩ := C76_violated_shadow ps hc q hq d hd order fuel cur

/-- What a symbol is in the end. -/
inductive Behind (ps : List APackage) : SSym → SSym → Prop
  | self (s : SSym) : s.isOriginal = true → Behind ps s s
  | link (s : SSym) (t : ATypeRef) (k : Nat) (T : SSym) : s.isOriginal = false → s.link = some t → k ≤ 100 → TypeStands ps k t T → Behind ps s T

/-- A package reaches what a reference says. -/
def Reaches (ps : List APackage) (p : APackage) (t : ATypeRef) : Prop :=
  t.isBuiltin = false → ∃ q ∈ ps, q.name = t.pkg ∧ Sees p q

theorem originalOf_stands {ps : List APackage} (hc : NoClash ps) {p0 : APackage} (hk : Knows ps p0) {k : Nat} {t : ATypeRef} {T : SSym}
    (h : TypeStands ps k t T) (order : EnumOrder) (fuel : Nat) (cur : Cur) :
    ∀ (m : Nat) (p : APackage) (s : SSym), p ∈ ps → Reaches ps p t → (t.isBuiltin = false → ∀ q ∈ ps, q.name = t.pkg → Sees p0 q) →
      k ≤ m → s.isOriginal = false → s.link = some t → originalOf ps order (fuel + 1) cur m p s = some T := by
  induction h with
  | builtin t hb =>
    intro m p s hp _ _ _ hs hl
    unfold originalOf
    simp [hs, hl, hb]
  | decl t q d hb hq hqn hd hdn hkind =>
    intro m p s hp hr _ hm hs hl
    obtain ⟨q', hq', hqn', hsee⟩ := hr hb
    have := inj_of_nodup_map hc.packages hq' hq (hqn'.trans hqn.symm)
    subst this
    obtain ⟨m, rfl⟩ : ∃ m', m = m' + 1 := ⟨m - 1, by omega⟩
    have h1 := scopeOf_sees hc.packages hp hq' hsee (hk.named q' hq') fuel
    rw [hqn'] at h1
    have h2 := getSymbolIn_own hc hq' hd order (fuel + 1) cur
    rw [hdn] at h2
    unfold originalOf
    simp only [hs, hl, hb, h1, h2, Bool.false_eq_true, if_false]
    have : (SSym.decl d).isOriginal = true := by
      simp only [List.mem_cons, List.not_mem_nil, or_false] at hkind
      simp only [SSym.isOriginal, List.mem_cons, List.not_mem_nil, or_false, decide_eq_true_eq]
      rcases hkind with h | h | h | h | h <;> simp [h]
    unfold originalOf
    simp [this]
  | sub k t q n t' T hb hq hqn hd hdn _ ih =>
    intro m p s hp hr hsee0 hm hs hl
    obtain ⟨q', hq', hqn', hsee⟩ := hr hb
    have := inj_of_nodup_map hc.packages hq' hq (hqn'.trans hqn.symm)
    subst this
    obtain ⟨m, rfl⟩ : ∃ m', m = m' + 1 := ⟨m - 1, by omega⟩
    have h1 := scopeOf_sees hc.packages hp hq' hsee (hk.named q' hq') fuel
    rw [hqn'] at h1
    have h2 := getSymbolIn_own hc hq' hd order (fuel + 1) cur
    have h0 := hsee0 hb q' hq' hqn
    unfold originalOf
    simp only [ADecl.name, hdn] at h2
    simp only [hs, hl, hb, h1, h2, Bool.false_eq_true, if_false]
    refine ih m q' _ hq' ?_ ?_ (by omega) ?_ rfl
    · intro hb'
      obtain ⟨q2, h1, h2, h3, _⟩ := hk.bound q' hq' h0 _ hd t' (.sub _ _) hb'
      exact ⟨q2, h1, h2, h3⟩
    · intro hb' q2 hq2 hn2
      obtain ⟨q3, h1, h2, _, h4⟩ := hk.bound q' hq' h0 _ hd t' (.sub _ _) hb'
      rw [inj_of_nodup_map hc.packages hq2 h1 (hn2.trans h2.symm)]
      exact h4
    · simp [SSym.isOriginal, ADecl.kind]

/-- The types of what a symbol is in the end. -/
def tyOf : SSym → Option ETy
  | .decl d => match d.kind with
    | .enum => some .enum
    | .bitmask => some .bitmask
    | .union => some .compound
    | .struct => some .compound
    | .choice => some .compound
    | _ => none
  | .item _ _ => some .integer
  | .function _ => some .ofFunction
  | .type t => some (builtinETy t)
  | _ => none

theorem symbolType_of {ps : List APackage} {order : EnumOrder} {fuel : Nat} {cur : Cur} {p : APackage} {s T : SSym}
    (h : originalOf ps order fuel cur 100 p s = some T) : symbolType ps order fuel cur p s = tyOf T := by
  unfold symbolType
  rw [h]
  cases T <;> rfl

theorem stands_ty {ps : List APackage} {k : Nat} {t : ATypeRef} {T : SSym} (h : TypeStands ps k t T) : ∃ ty, tyOf T = some ty := by
  induction h with
  | builtin t => exact ⟨_, rfl⟩
  | decl t q d _ _ _ _ _ hkind =>
    simp only [List.mem_cons, List.not_mem_nil, or_false] at hkind
    rcases hkind with h | h | h | h | h <;> simp [tyOf, h]
  | sub => assumption

theorem behind_ty {ps : List APackage} {s T : SSym} (h : Behind ps s T) : ∃ ty, tyOf T = some ty := by
  cases h with
  | self hs =>
    cases s with
    | decl d =>
      simp only [SSym.isOriginal, List.mem_cons, List.not_mem_nil, or_false, decide_eq_true_eq] at hs
      rcases hs with h | h | h | h | h <;> simp [tyOf, h]
    | item => exact ⟨_, rfl⟩
    | function => exact ⟨_, rfl⟩
    | _ => cases hs
  | link t k _ _ _ _ h => exact stands_ty h

/-- Where the type of a symbol is written, package `p` knows about it. -/
def Located (ps : List APackage) (p : APackage) (s : SSym) : Prop :=
  ∀ t, s.link = some t → ∃ q ∈ ps, Sees p q ∧ ∃ d ∈ q.decls, UsesType d t

theorem originalOf_behind {ps : List APackage} (hc : NoClash ps) {p : APackage} (hp : p ∈ ps) (hk : Knows ps p) {s T : SSym}
    (hl : Located ps p s) (h : Behind ps s T) (order : EnumOrder) (fuel : Nat) (cur : Cur) :
    originalOf ps order (fuel + 1) cur 100 p s = some T := by
  cases h with
  | self hs =>
    unfold originalOf
    simp [hs]
  | link t k _ hs hlt hkk hst =>
    obtain ⟨q, hq, hsee, d, hd, hu⟩ := hl t hlt
    refine originalOf_stands hc hk hst order fuel cur 100 p s hp ?_ ?_ hkk hs hlt
    · intro hb
      obtain ⟨q', h1, h2, _, h4⟩ := hk.bound q hq hsee d hd t hu hb
      exact ⟨q', h1, h2, h4⟩
    · intro hb q2 hq2 hn2
      obtain ⟨q', h1, h2, _, h4⟩ := hk.bound q hq hsee d hd t hu hb
      rw [inj_of_nodup_map hc.packages hq2 h1 (hn2.trans h2.symm)]
      exact h4

/-- The same, seen from the package where the symbol is declared. -/
theorem originalOf_there {ps : List APackage} (hc : NoClash ps) {p : APackage} (hk : Knows ps p) {q : APackage} (hq : q ∈ ps)
    (hsee : Sees p q) {d : ADecl} (hd : d ∈ q.decls) {s T : SSym}
    (hu : ∀ t, s.link = some t → UsesType d t) (h : Behind ps s T) (order : EnumOrder) (fuel : Nat) (cur : Cur) :
    originalOf ps order (fuel + 1) cur 100 q s = some T := by
  cases h with
  | self hs =>
    unfold originalOf
    simp [hs]
  | link t k _ hs hlt hkk hst =>
    refine originalOf_stands hc hk hst order fuel cur 100 q s hq ?_ ?_ hkk hs hlt
    · intro hb
      obtain ⟨q', h1, h2, h3, _⟩ := hk.bound q hq hsee d hd t (hu t hlt) hb
      exact ⟨q', h1, h2, h3⟩
    · intro hb q2 hq2 hn2
      obtain ⟨q', h1, h2, _, h4⟩ := hk.bound q hq hsee d hd t (hu t hlt) hb
      rw [inj_of_nodup_map hc.packages hq2 h1 (hn2.trans h2.symm)]
      exact h4

theorem compoundOf_stands {ps : List APackage} (hc : NoClash ps) {p : APackage} (hp : p ∈ ps) (hk : Knows ps p) {k : Nat} {t : ATypeRef}
    {T : SSym} (h : TypeStands ps k t T) (order : EnumOrder) (fuel : Nat) (cur : Cur) (d : ADecl) (hT : T = .decl d) :
    ∀ (m : Nat) (scope : APackage), scope ∈ ps → Reaches ps scope t → (∀ q ∈ ps, q.name = t.pkg → Sees p q) → k ≤ m →
      ∃ q ∈ ps, Sees p q ∧ d ∈ q.decls ∧
        compoundOf ps order (fuel + 1) cur p m scope t = some (⟨.decl d, d.name, q.name, []⟩, q) := by
  induction h with
  | builtin => cases hT
  | decl t q d' hb hq hqn hd hdn hkind =>
    cases hT
    intro m scope hsc hr hsee hm
    obtain ⟨q', hq', hqn', hs'⟩ := hr hb
    have := inj_of_nodup_map hc.packages hq' hq (hqn'.trans hqn.symm)
    subst this
    obtain ⟨m, rfl⟩ : ∃ m', m = m' + 1 := ⟨m - 1, by omega⟩
    have hsq := hsee q' hq' hqn'
    have h1 := getSymbolIn_seen hc hp hk hq' hsq hd order (fuel + 1) cur
    rw [hdn] at h1
    have h2 := scopeOf_sees hc.packages hsc hq' hs' (hk.named q' hq') fuel
    refine ⟨q', hq', hsq, hd, ?_⟩
    simp only [compoundOf, h1, h2]
    cases d <;> first | (simp [ADecl.kind] at hkind; done) | rw [hdn]
  | sub k t q n t' T hb hq hqn hd hdn _ ih =>
    intro m scope hsc hr hsee hm
    obtain ⟨q', hq', hqn', hs'⟩ := hr hb
    have := inj_of_nodup_map hc.packages hq' hq (hqn'.trans hqn.symm)
    subst this
    obtain ⟨m, rfl⟩ : ∃ m', m = m' + 1 := ⟨m - 1, by omega⟩
    have hsq := hsee q' hq' hqn'
    have h1 := getSymbolIn_seen hc hp hk hq' hsq hd order (fuel + 1) cur
    simp only [ADecl.name, hdn] at h1
    have h2 := scopeOf_sees hc.packages hsc hq' hs' (hk.named q' hq') fuel
    have hb' : t'.isBuiltin = false := by
      rename_i hst
      cases hst with
      | builtin => cases hT
      | decl _ _ _ h => exact h
      | sub _ _ _ _ _ _ h => exact h
    obtain ⟨q2, hq2, hn2, hs2, hs2'⟩ := hk.bound q' hq' hsq _ hd t' (.sub _ _) hb'
    have h3 := scopeOf_sees hc.packages hq' hq2 hs2 (hk.named q2 hq2) fuel
    rw [hn2] at h3
    obtain ⟨r, hr1, hr2, hr3, hr4⟩ := ih hT m q2 hq2 (fun _ => ⟨q2, hq2, hn2, .inl rfl⟩)
      (fun q3 hq3 hn3 => by rw [inj_of_nodup_map hc.packages hq3 hq2 (hn3.trans hn2.symm)]; exact hs2') (by omega)
    refine ⟨r, hr1, hr2, hr3, ?_⟩
    simp only [compoundOf, h1, h2, h3]
    exact hr4

theorem inside_cases {d : ADecl} {n : List Char} {s : SSym} (h : (n, s) ∈ d.inside) :
    (∃ a, s = .param a) ∨ (∃ f, s = .field f) ∨ ∃ g, s = .function g := by
  cases d <;> first
    | cases h
    | (simp only [ADecl.inside, List.mem_append, List.mem_map, Prod.mk.injEq] at h
       rcases h with (⟨a, _, _, rfl⟩ | ⟨a, _, _, rfl⟩) | ⟨a, _, _, rfl⟩
       · exact .inl ⟨a, rfl⟩
       · exact .inr (.inl ⟨a, rfl⟩)
       · exact .inr (.inr ⟨a, rfl⟩))

theorem link_uses {d : ADecl} {n : List Char} {s : SSym} (h : (n, s) ∈ d.inside) (t : ATypeRef) (hl : s.link = some t) : UsesType d t := by
  have : HasType s t := by
    rcases inside_cases h with ⟨a, rfl⟩ | ⟨f, rfl⟩ | ⟨g, rfl⟩
    · cases hl
      exact .param a
    · cases hl
      exact .field f
    · cases hl
  exact .member d n s t h this

theorem refers_located {ps : List APackage} {p : APackage} (hp : p ∈ ps) {d : ADecl} (hd : d ∈ p.decls) {n : List Char} {s : SSym}
    (hi : ∀ q, (q, n) ∉ p.imports) (h : Refers ps p d n s) : Located ps p s := by
  intro t hl
  have aux : ∀ e : ADecl, (SSym.decl e).link = some t → UsesType e t := by
    intro e he
    cases e <;> first | (cases he; exact .sub _ _) | cases he
  cases h with
  | member _ hm => exact ⟨p, hp, .inl rfl, d, hd, link_uses hm t hl⟩
  | own e _ he _ => exact ⟨p, hp, .inl rfl, e, he, aux e hl⟩
  | imported q e _ _ hq he _ =>
    rcases hq with ⟨hq, hq' | hq'⟩
    · exact ⟨q, hq, .inr hq', e, he, aux e hl⟩
    · exact absurd hq' (hi _)

theorem refers_behind {ps : List APackage} {p : APackage} (hk : Knows ps p) {d : ADecl} {n : List Char} {s : SSym}
    (hl : Located ps p s) (h : Refers ps p d n s) (h1 : ∀ c t e, s ≠ .decl (.const c t e)) (h2 : ∀ c t, s ≠ .decl (.instantiate c t)) :
    ∃ T, Behind ps s T := by
  have link : ∀ t, s.isOriginal = false → s.link = some t → ∃ T, Behind ps s T := by
    intro t ho ht
    obtain ⟨q, hq, hsee, e, he, hu⟩ := hl t ht
    obtain ⟨k, hkk, T, hT⟩ := hk.stands q hq hsee e he t hu
    exact ⟨T, .link s t k T ho ht hkk hT⟩
  have decl : ∀ e, s = .decl e → ∃ T, Behind ps s T := by
    intro e he
    subst he
    cases e with
    | const c t e => exact absurd rfl (h1 c t e)
    | instantiate c t => exact absurd rfl (h2 c t)
    | subtype c t => exact link t rfl rfl
    | _ => exact ⟨_, .self _ rfl⟩
  cases h with
  | member _ hm =>
    rcases inside_cases hm with ⟨a, rfl⟩ | ⟨f, rfl⟩ | ⟨g, rfl⟩
    · exact link _ rfl rfl
    · exact link _ rfl rfl
    · exact ⟨_, .self _ rfl⟩
  | own e _ _ _ => exact decl e rfl
  | imported q e _ _ _ _ _ => exact decl e rfl

theorem find_item {l : List AItem} (h : (l.map AItem.name).Nodup) {i : AItem} (hi : i ∈ l) : l.find? (fun j => j.name == i.name) = some i := by
  cases hf : l.find? (fun j => j.name == i.name) with
  | none =>
    have := List.find?_eq_none.mp hf i hi
    simp at this
  | some j =>
    have hj : j.name = i.name := by simpa using List.find?_some hf
    rw [inj_of_nodup_map h (List.mem_of_find?_eq_some hf) hi hj]

theorem namesType_behind {ps : List APackage} {s : SSym} {e : ADecl} (h : NamesType ps s e) (he : e.kind = .enum ∨ e.kind = .bitmask) :
    Behind ps s (.decl e) := by
  cases h with
  | self =>
    refine .self _ ?_
    rcases he with he | he <;> simp [SSym.isOriginal, he]
  | sub k n t _ hk hs => exact .link _ t k _ rfl rfl hk hs

theorem stands_mem {ps : List APackage} {k : Nat} {t : ATypeRef} {T : SSym} (h : TypeStands ps k t T) (d : ADecl) (hT : T = .decl d) :
    ∃ q ∈ ps, d ∈ q.decls := by
  induction h with
  | builtin => cases hT
  | decl t q d' _ hq _ hd => cases hT; exact ⟨q, hq, hd⟩
  | sub _ _ _ _ _ _ _ _ _ _ _ _ ih => exact ih hT

/-- The declaration that a type name stands for is among the packages. -/
theorem namesType_mem {ps : List APackage} {p : APackage} {d : ADecl} {ok : ADecl → List Char → Prop} {a : AExpr} (hp : p ∈ ps) {s : SSym}
    (h : Means ok ps p d a s) {e : ADecl} (hs : NamesType ps s e) : ∃ q ∈ ps, e ∈ q.decls := by
  cases hs with
  | self =>
    cases h with
    | name n _ hr =>
      cases hr with
      | member _ hm => rcases inside_cases hm with ⟨a, h⟩ | ⟨f, h⟩ | ⟨g, h⟩ <;> cases h
      | own _ _ he _ => exact ⟨p, hp, he⟩
      | imported q _ _ _ hq he _ => exact ⟨q, hq.1, he⟩
    | member _ n _ t k e' _ _ _ _ _ hm => rcases inside_cases hm with ⟨a, h⟩ | ⟨f, h⟩ | ⟨g, h⟩ <;> cases h
  | sub k n t _ _ hst => exact stands_mem hst e rfl

theorem path_eval (ps : List APackage) (hc : NoClash ps) (ord : VisitOrder) (ho : ord.Ok ps) (order : EnumOrder) (fuel : Nat)
    (hfuel : 100 ≤ fuel) (v : Visit) (hv : v ∈ evaluateModel ord) (ht : ¬ v.decl.isTemplate) (hk : Knows ps v.pkg) (e : AExpr) (s : SSym)
    (h : Means Reached ps v.pkg v.decl e s)
    (hl : ∀ n ∈ e.lookups, Reached v.decl n ∧ NotShadowed ps v.pkg v.decl n ∧ ∀ q, (q, n) ∉ v.pkg.imports) :
    Located ps v.pkg s ∧ ∃ r ty, evalSymbol ps order (fuel + 1) v.cur v.pkg e = some (r, ty) ∧ r.sym = s ∧
      ∀ T, Behind ps s T → tyOf T = some ty := by
  obtain ⟨hp, hd⟩ := visit_declared ho hv
  induction h with
  | name n s hr h1 h2 =>
    obtain ⟨hre, hns, hi⟩ := hl n (by simp [AExpr.lookups])
    have hloc := refers_located hp hd hi hr
    refine ⟨hloc, ?_⟩
    have hone : ∀ q q', ImportsName ps v.pkg n q → ImportsName ps v.pkg n q' → (∃ e ∈ q.decls, e.name = n) →
        (∃ e ∈ q'.decls, e.name = n) → q = q' := by
      rintro q q' ⟨hq, hq2⟩ ⟨hq', hq2'⟩ ⟨e, he, hen⟩ ⟨e', he', hen'⟩
      have a : Sees v.pkg q := hq2.elim .inr fun h => absurd h (hi _)
      have a' : Sees v.pkg q' := hq2'.elim .inr fun h => absurd h (hi _)
      exact hk.unique q hq q' hq' a a' e he e' he' (hen.trans hen'.symm)
    obtain ⟨r, hr', hrs⟩ := C76_found_partial ps hc ord ho order (fuel + 1) v hv ht n hre hns hi hone s hr
    obtain ⟨T, hT⟩ := refers_behind hk hloc hr h1 h2
    obtain ⟨ty, hty⟩ := behind_ty hT
    have hsy := symbolType_of (originalOf_behind hc hp hk hloc hT order fuel v.cur)
    refine ⟨r, ty, ?_, hrs, fun T' hT' => ?_⟩
    · simp only [evalSymbol, hr', hrs]
      cases s with
      | decl e =>
        cases e with
        | const c t e => exact absurd rfl (h1 c t e)
        | _ => simp [hsy, hty]
      | _ => simp [hsy, hty]
    · have := symbolType_of (originalOf_behind hc hp hk hloc hT' order fuel v.cur)
      rw [← this, hsy, hty]
  | item a i s e hm hnt hi ih =>
    obtain ⟨hloc, r, ty, hev, hrs, hty⟩ := ih fun n hn => hl n (by simp [AExpr.lookups, hn])
    have hek : e.kind = .enum := by cases e <;> first | rfl | cases hi
    have hB := namesType_behind hnt (.inl hek)
    have ho' := originalOf_behind hc hp hk hloc hB order fuel v.cur
    have hty' := hty _ hB
    simp only [tyOf, hek, Option.some.injEq] at hty'
    obtain ⟨q, hq, he⟩ := namesType_mem hp hm hnt
    refine ⟨(fun t h => by cases h), ⟨.item e i, i.name, [], []⟩, .integer, ?_, rfl, fun T hT => ?_⟩
    · simp only [evalSymbol, hev, dotSymbol, hrs, ho', ← hty', find_item (hk.items q hq e he).1 hi]
    · cases hT with
      | self => rfl
      | link t k _ h _ => cases h
  | value a i s e hm hnt hi ih =>
    obtain ⟨hloc, r, ty, hev, hrs, hty⟩ := ih fun n hn => hl n (by simp [AExpr.lookups, hn])
    have hek : e.kind = .bitmask := by cases e <;> first | rfl | cases hi
    have hB := namesType_behind hnt (.inr hek)
    have ho' := originalOf_behind hc hp hk hloc hB order fuel v.cur
    have hty' := hty _ hB
    simp only [tyOf, hek, Option.some.injEq] at hty'
    obtain ⟨q, hq, he⟩ := namesType_mem hp hm hnt
    refine ⟨(fun t h => by cases h), ⟨.value e i, i.name, [], []⟩, .bitmask, ?_, rfl, fun T hT => ?_⟩
    · cases e with
      | bitmask n t values =>
        have := find_item (hk.items q hq _ he).2 hi
        simp only [ADecl.bits] at this
        simp only [evalSymbol, hev, dotSymbol, hrs, ho', ← hty', this]
      | _ => cases hek
    · cases hT with
      | self h => cases h
      | link t k _ _ h => cases h
  | member a n s t k e m hm hst hkk hT hin hok ih =>
    obtain ⟨hloc, r, ty, hev, hrs, hty⟩ := ih fun n hn => hl n (by simp [AExpr.lookups, hn])
    obtain ⟨hekk, hent⟩ := reached_entries hok m hin
    have hlink : s.link = some t ∧ s.reference = some t ∧ s.isOriginal = false := by cases hst <;> exact ⟨rfl, rfl, rfl⟩
    have hB : Behind ps s (.decl e) := .link s t k _ hlink.2.2 hlink.1 hkk hT
    have ho' := originalOf_behind hc hp hk hloc hB order fuel v.cur
    have hty' := hty _ hB
    have hcomp : ty = .compound := by
      rcases hekk with h | h <;> simp only [tyOf, h, Option.some.injEq] at hty' <;> exact hty'.symm
    have hb : t.isBuiltin = false := by
      cases hT with
      | decl _ _ _ h => exact h
      | sub _ _ _ _ _ _ h => exact h
    obtain ⟨q0, hq0, hs0, d0, hd0, hu0⟩ := hloc t hlink.1
    obtain ⟨q1, hq1, hn1, _, hs1⟩ := hk.bound q0 hq0 hs0 d0 hd0 t hu0 hb
    obtain ⟨q, hq, hsq, heq, hco⟩ := compoundOf_stands hc hp hk hT order fuel v.cur e rfl (fuel + 1) v.pkg hp
      (fun _ => ⟨q1, hq1, hn1, hs1⟩)
      (fun q2 hq2 hn2 => by rw [inj_of_nodup_map hc.packages hq2 hq1 (hn2.trans hn1.symm)]; exact hs1) (by omega)
    have hcs := (compoundSymbol_iff (hc.decls q hq) heq (inside_kind hin) (hc.members q hq e heq) n _).mpr ⟨m, hent, rfl⟩
    have hget : getCompoundSymbol ps v.pkg e.name n = some ⟨m, n, q.name, e.name⟩ := by
      unfold getCompoundSymbol
      refine findSome_unique ((mem_seen hc.packages hp).mpr ⟨hq, hsq⟩) hcs ?_
      intro q' hq' r hr
      obtain ⟨h1, h2⟩ := (mem_seen hc.packages hp).mp hq'
      obtain ⟨e', he', hen, _⟩ := compoundSymbol_some (hc.decls q' h1) hr
      exact hk.unique q' h1 q hq h2 hsq e' he' e heq hen
    have huse : ∀ t, m.link = some t → UsesType e t := fun t h => link_uses hin t h
    have hbm : ∃ T, Behind ps m T := by
      rcases inside_cases hin with ⟨a, rfl⟩ | ⟨f, rfl⟩ | ⟨g, rfl⟩
      · obtain ⟨k, hkk, T, hT⟩ := hk.stands q hq hsq e heq _ (huse _ rfl)
        exact ⟨T, .link _ _ k T rfl rfl hkk hT⟩
      · obtain ⟨k, hkk, T, hT⟩ := hk.stands q hq hsq e heq _ (huse _ rfl)
        exact ⟨T, .link _ _ k T rfl rfl hkk hT⟩
      · exact ⟨_, .self _ rfl⟩
    obtain ⟨T, hTm⟩ := hbm
    obtain ⟨ty', hty2⟩ := behind_ty hTm
    have hsy := symbolType_of (originalOf_there hc hk hq hsq heq huse hTm order fuel v.cur)
    refine ⟨fun t h => ⟨q, hq, hsq, e, heq, huse t h⟩, ⟨m, n, q.name, e.name⟩, ty', ?_, rfl, fun T' hT' => ?_⟩
    · simp only [evalSymbol, hev, dotSymbol, hrs, ho', hcomp, compoundDot, hlink.2.1, hco, hekk, if_true, hget, hsy, hty2, Option.map_some]
    · have := symbolType_of (originalOf_there hc hk hq hsq heq huse hT' order fuel v.cur)
      rw [← this, hsy, hty2]

/-- **C77**: a name with names behind dots stands for what the types say.  Missing: members of unions, functions and default cases of choices
and shadowed members (`Reached`, `NotShadowed`), and packages that are imported indirectly or declare types of the same name (`Knows`). -/
theorem C77_path_partial (ps : List APackage) (hc : NoClash ps) (ord : VisitOrder) (ho : ord.Ok ps) (order : EnumOrder) (fuel : Nat)
    (hfuel : 100 < fuel) (v : Visit) (hv : v ∈ evaluateModel ord) (ht : ¬ v.decl.isTemplate) (hk : Knows ps v.pkg) (e : AExpr) (s : SSym)
    (h : Means Reached ps v.pkg v.decl e s)
    (hl : ∀ n ∈ e.lookups, Reached v.decl n ∧ NotShadowed ps v.pkg v.decl n ∧ ∀ q, (q, n) ∉ v.pkg.imports) :
    ∃ r ty, evalSymbol ps order fuel v.cur v.pkg e = some (r, ty) ∧ r.sym = s := by
  obtain ⟨fuel, rfl⟩ : ∃ f, fuel = f + 1 := ⟨fuel - 1, by omega⟩
  obtain ⟨_, r, ty, h1, h2, _⟩ := path_eval ps hc ord ho order fuel (by omega) v hv ht hk e s h hl
  exact ⟨r, ty, h1, h2⟩

/-! ## C78 -/

theorem getOtherSymbol_found {ps : List APackage} (hc : NoClash ps) {order : EnumOrder} (ho : order.Ok ps) {p q : APackage} (hp : p ∈ ps)
    (hq : q ∈ ps) (hs : Sees p q) {e : ADecl} (he : e ∈ q.decls) {i : AItem} (hi : i ∈ e.enumItems) (fuel : Nat) :
    ∃ r, getOtherSymbol ps order (fuel + 2) p i.name = some r := by
  have here : ∀ q' ∈ ps, e ∈ q'.decls → ∃ s, lastEntry (otherEntries (order q'.name)) i.name = some s := by
    intro q' hq' he'
    cases hl : lastEntry (otherEntries (order q'.name)) i.name with
    | some s => exact ⟨s, rfl⟩
    | none =>
      exfalso
      unfold lastEntry at hl
      rw [Option.map_eq_none_iff, List.find?_eq_none] at hl
      have : (i.name, SSym.item e i) ∈ otherEntries (order q'.name) := by
        refine List.mem_flatMap.mpr ⟨e, (ho q' hq').mem_iff.mpr ?_, List.mem_map.mpr ⟨i, hi, rfl⟩⟩
        refine List.mem_filter.mpr ⟨he', ?_⟩
        cases e <;> first | rfl | cases hi
      have := hl _ (List.mem_reverse.mpr this)
      simp at this
  cases hr : getOtherSymbol ps order (fuel + 2) p i.name with
  | some r => exact ⟨r, rfl⟩
  | none =>
    exfalso
    rw [getOtherSymbol] at hr
    cases hl : lastEntry (otherEntries (order p.name)) i.name with
    | some s => rw [hl] at hr; cases hr
    | none =>
      rw [hl] at hr
      rcases hs with rfl | hs
      · obtain ⟨s, h⟩ := here q hq he
        rw [hl] at h
        cases h
      · rw [List.findSome?_eq_none_iff] at hr
        have := hr q ((mem_importedOf hc.packages p q).mpr ⟨hq, hs⟩)
        obtain ⟨s, h⟩ := here q hq he
        rw [getOtherSymbol, h] at this
        cases this

/-- **C78**: a name as label of a choice on a parameter is the item of the enum that is the type of the parameter, even if other enums have an
item of that name.  Missing: labels that are constants or values of bitmasks, and selectors that are no parameter by itself. -/
theorem C78_label_partial (ps : List APackage) (hc : NoClash ps) (ord : VisitOrder) (ho : ord.Ok ps) (order : EnumOrder) (hoe : order.Ok ps)
    (fuel : Nat) (hfuel : 100 < fuel) (v : Visit) (hv : v ∈ evaluateModel ord) (ht : ¬ v.decl.isTemplate) (hk : Knows ps v.pkg)
    (nm : List Char) (as : List AParam) (a : AParam) (cs : List AChoiceCase) (dc : Option AChoiceCase) (gs : List AFunction)
    (hd : v.decl = .choice nm [] as (.leaf .id a.name) cs dc gs) (ha : a ∈ as)
    (hr : Reached v.decl a.name) (hs : NotShadowed ps v.pkg v.decl a.name) (hi : ∀ q, (q, a.name) ∉ v.pkg.imports)
    (k : Nat) (hkk : k ≤ 100) (e : ADecl) (hT : TypeStands ps k a.type (.decl e)) (i : AItem) (hitem : i ∈ e.enumItems)
    (hsee : ∀ q ∈ ps, e ∈ q.decls → Sees v.pkg q)
    (hni : ∀ q ∈ ps, Sees v.pkg q → ∀ e ∈ q.decls, e.name = i.name → e.kind ≠ .instantiate) :
    labelSymbol ps order fuel v.cur v.pkg ((evalSymbol ps order fuel v.cur v.pkg (.leaf .id a.name)).map fun r => r.1.sym)
      (.leaf .id i.name) = some (.item e i) := by
  obtain ⟨fuel, rfl⟩ : ∃ f, fuel = f + 2 := ⟨fuel - 2, by omega⟩
  obtain ⟨hp, hdm⟩ := visit_declared ho hv
  have hin : (a.name, SSym.param a) ∈ v.decl.inside := by
    rw [hd]
    simp only [ADecl.inside, List.mem_append, List.mem_map]
    exact .inl (.inl ⟨a, ha, rfl⟩)
  obtain ⟨r, ty, hev, hrs⟩ := C77_path_partial ps hc ord ho order (fuel + 2) hfuel v hv ht hk (.leaf .id a.name) (.param a)
    (.name _ _ (.member _ hin) (by intros; simp) (by intros; simp))
    (by intro n hn
        simp only [AExpr.lookups, if_true, List.mem_cons, List.not_mem_nil, or_false] at hn
        subst hn
        exact ⟨hr, hs, hi⟩)
  rw [hev]
  simp only [Option.map_some, hrs, labelSymbol, specifyLabel]
  have hek : e.kind = .enum := by cases e <;> first | rfl | cases hitem
  have hb : a.type.isBuiltin = false := by
    cases hT with
    | decl _ _ _ h => exact h
    | sub _ _ _ _ _ _ h => exact h
  have huse : UsesType v.decl a.type := .member _ _ _ _ hin (.param a)
  obtain ⟨q1, hq1, hn1, hs1, _⟩ := hk.bound v.pkg hp (.inl rfl) v.decl hdm a.type huse hb
  -- the type of the parameter, by its name
  have hdecl : ∃ d1 ∈ q1.decls, d1.name = a.type.name ∧ Behind ps (.decl d1) (.decl e) := by
    cases hT with
    | decl _ q _ _ hq hqn hd hdn hkind =>
      have := inj_of_nodup_map hc.packages hq1 hq (hn1.trans hqn.symm)
      subst this
      exact ⟨e, hd, hdn, .self _ (by simp [SSym.isOriginal, hek])⟩
    | sub k _ q n t' _ _ hq hqn hd hdn hT' =>
      have := inj_of_nodup_map hc.packages hq1 hq (hn1.trans hqn.symm)
      subst this
      exact ⟨_, hd, hdn, .link _ t' k _ rfl rfl (by omega) hT'⟩
  obtain ⟨d1, hd1, hdn1, hB⟩ := hdecl
  have hloc : ∀ q ∈ ps, Sees v.pkg q → ∀ d ∈ q.decls, Located ps v.pkg (.decl d) := by
    intro q hq hsq d hd t hl
    refine ⟨q, hq, hsq, d, hd, ?_⟩
    cases d <;> first | (cases hl; exact .sub _ _) | cases hl
  have hg1 := getSymbolIn_seen hc hp hk hq1 hs1 hd1 order (fuel + 2) v.cur
  rw [hdn1] at hg1
  have ho1 := originalOf_behind hc hp hk (hloc q1 hq1 hs1 d1 hd1) hB order (fuel + 1) v.cur
  have hsy1 := symbolType_of ho1
  have hev1 : evalSymbol ps order (fuel + 2) v.cur v.pkg (.leaf .id a.type.name) =
      some (⟨.decl d1, a.type.name, q1.name, []⟩, .enum) := by
    simp only [evalSymbol, hg1]
    have hty : symbolType ps order (fuel + 2) v.cur v.pkg (.decl d1) = some .enum := by
      rw [hsy1]
      simp [tyOf, hek]
    cases d1 with
    | const => cases hB with
      | self => cases hek
      | link _ _ _ _ h => cases h
    | _ => simp only [hty, Option.map_some]
  rw [hev1]
  obtain ⟨q, hq, heq⟩ := stands_mem hT e rfl
  have hdot : dotSymbol ps order (fuel + 2) v.cur v.pkg (⟨.decl d1, a.type.name, q1.name, []⟩, .enum) i.name =
      some (⟨.item e i, i.name, [], []⟩, .integer) := by
    simp only [dotSymbol, ho1, find_item (hk.items q hq e heq).1 hitem]
  -- the second operand is looked up as well
  have hsecond : ∃ r, getSymbolIn ps order (fuel + 2) v.cur v.pkg i.name = some r ∧
      ((∃ c t x, r.sym = .decl (.const c t x)) ∨ ∃ ty, symbolType ps order (fuel + 2) v.cur v.pkg r.sym = some ty) := by
    have known : ∀ s, Located ps v.pkg s → (∃ T, Behind ps s T) → ∃ ty, symbolType ps order (fuel + 2) v.cur v.pkg s = some ty := by
      rintro s hl ⟨T, hT⟩
      obtain ⟨ty, hty⟩ := behind_ty hT
      exact ⟨ty, by rw [symbolType_of (originalOf_behind hc hp hk hl hT order (fuel + 1) v.cur), hty]⟩
    have linked : ∀ s t, Located ps v.pkg s → s.isOriginal = false → s.link = some t → ∃ T, Behind ps s T := by
      intro s t hl ho ht
      obtain ⟨q, hq, hsee, e, he, hu⟩ := hl t ht
      obtain ⟨k, hkk, T, hT⟩ := hk.stands q hq hsee e he t hu
      exact ⟨T, .link s t k T ho ht hkk hT⟩
    unfold getSymbolIn
    cases hty : getTypeSymbol ps v.pkg i.name with
    | some r =>
      refine ⟨r, rfl, ?_⟩
      have : ∃ q ∈ ps, Sees v.pkg q ∧ ∃ d ∈ q.decls, d.name = i.name ∧ r.sym = .decl d := by
        rcases getTypeSymbol_some hc hp hty with ⟨d, hd, hn, rfl⟩ | ⟨_, q, hq, hi, d, hd, hn, rfl⟩
        · exact ⟨v.pkg, hp, .inl rfl, d, hd, hn, rfl⟩
        · exact ⟨q, hq, .inr hi, d, hd, hn, rfl⟩
      obtain ⟨q, hq, hsq, d, hd, hn, hrs⟩ := this
      rw [hrs]
      have hld := hloc q hq hsq d hd
      cases d with
      | const c t x => exact .inl ⟨c, t, x, rfl⟩
      | instantiate c t => exact absurd rfl (hni q hq hsq _ hd hn)
      | subtype c t => exact .inr (known _ hld (linked _ t hld rfl rfl))
      | _ => exact .inr (known _ hld ⟨_, .self _ rfl⟩)
    | none =>
      cases hcu : getCurrentSymbol ps v.cur v.pkg i.name with
      | some r =>
        refine ⟨r, rfl, .inr ?_⟩
        unfold getCurrentSymbol at hcu
        obtain ⟨q, hq, hqr⟩ := List.exists_of_findSome?_eq_some hcu
        obtain ⟨hqp, hsq⟩ := (mem_seen hc.packages hp).mp hq
        cases hcq : v.cur q.name with
        | none => rw [hcq] at hqr; cases hqr
        | some c =>
          rw [hcq] at hqr
          obtain ⟨d, hdq, _, _, hm, _⟩ := compoundSymbol_some (hc.decls q hqp) hqr
          have hm' := (scopeEntries_sublist d).subset hm
          have hl : Located ps v.pkg r.sym := fun t h => ⟨q, hqp, hsq, d, hdq, link_uses hm' t h⟩
          refine known _ hl ?_
          rcases inside_cases hm' with ⟨a, h⟩ | ⟨f, h⟩ | ⟨g, h⟩
          · exact linked _ _ hl (by rw [h]; rfl) (by rw [h]; rfl)
          · exact linked _ _ hl (by rw [h]; rfl) (by rw [h]; rfl)
          · exact ⟨_, .self _ (by rw [h]; rfl)⟩
      | none =>
        obtain ⟨r, hr⟩ := getOtherSymbol_found hc hoe hp hq (hsee q hq heq) heq hitem fuel
        refine ⟨r, hr, .inr ?_⟩
        obtain ⟨_, _, e', _, _, i', _, _, rfl⟩ := getOtherSymbol_some hc.packages hoe _ _ hp _ _ hr
        exact known _ (fun t h => by cases h) ⟨_, .self _ rfl⟩
  obtain ⟨r2, hr2, hcase⟩ := hsecond
  rw [hr2]
  rcases hcase with ⟨c, t, x, h⟩ | ⟨ty2, h⟩
  · simp only [h, hdot, Option.map_some]
  · cases hsym : r2.sym with
    | decl d =>
      cases d with
      | const => simp only [hsym, hdot, Option.map_some]
      | _ =>
        rw [hsym] at h
        simp only [hsym, h, hdot, Option.map_some]
    | _ =>
      rw [hsym] at h
      simp only [hsym, h, hdot, Option.map_some]

/-! ## A case -/

namespace DotsExample

open ScopeExample (u8 named plain red)

/-- `struct P { uint8 x; };` -/
def P : ADecl := .struct "P".toList [] [] [plain "x" u8] []
/-- `subtype P Q;` -/
def Q : ADecl := .subtype "Q".toList (named "b" "P")
def color : ADecl := .enum "Color".toList u8 [red]
def lamp : ADecl := .enum "Lamp".toList u8 [red]
def b : APackage := ⟨"b".toList, [], [P, Q, color, lamp]⟩
/-- `struct S { Q p; };` -/
def S : ADecl := .struct "S".toList [] [] [plain "p" (named "b" "Q")] []
def c : AParam := ⟨"c".toList, named "b" "Color"⟩
def one : AChoiceCase := ⟨[.leaf .id "RED".toList], some (plain "r" u8)⟩
/-- `choice C(Color c) on c { case RED: uint8 r; };` -/
def C : ADecl := .choice "C".toList [] [c] (.leaf .id "c".toList) [one] none []
def a : APackage := ⟨"a".toList, [("b".toList, ['*'])], [S, C]⟩
def ps : List APackage := [b, a]

theorem noClash : NoClash ps where
  packages := by decide
  decls := by
    intro p hp
    simp only [ps, List.mem_cons, List.not_mem_nil, or_false] at hp
    rcases hp with rfl | rfl <;> decide
  members := by
    intro p hp d hd
    simp only [ps, List.mem_cons, List.not_mem_nil, or_false] at hp
    rcases hp with rfl | rfl
    · simp only [b, List.mem_cons, List.not_mem_nil, or_false] at hd
      rcases hd with rfl | rfl | rfl | rfl <;> decide
    · simp only [a, List.mem_cons, List.not_mem_nil, or_false] at hd
      rcases hd with rfl | rfl <;> decide

theorem standsP : TypeStands ps 1 (named "b" "P") (.decl P) :=
  .decl _ b P rfl (by simp [ps]) rfl (by simp [b]) rfl (by simp [P, ADecl.kind])

theorem standsQ : TypeStands ps 2 (named "b" "Q") (.decl P) :=
  .sub 1 _ b "Q".toList (named "b" "P") _ rfl (by simp [ps]) rfl (show Q ∈ b.decls by simp [b]) rfl standsP

theorem standsColor : TypeStands ps 1 (named "b" "Color") (.decl color) :=
  .decl _ b color rfl (by simp [ps]) rfl (by simp [b]) rfl (by simp [color, ADecl.kind])

/-- The types that are used. -/
theorem uses (q : APackage) (hq : q ∈ ps) (d : ADecl) (hd : d ∈ q.decls) (t : ATypeRef) (h : UsesType d t) :
    t = u8 ∨ (q = b ∧ t = named "b" "P") ∨ (q = a ∧ t = named "b" "Q") ∨ (q = a ∧ t = named "b" "Color") := by
  simp only [ps, List.mem_cons, List.not_mem_nil, or_false] at hq
  rcases hq with rfl | rfl
  · simp only [b, List.mem_cons, List.not_mem_nil, or_false] at hd
    rcases hd with rfl | rfl | rfl | rfl
    · cases h with
      | member _ n s _ hm hs =>
        simp only [P, ADecl.inside, List.map_cons, List.map_nil, List.nil_append, List.append_nil, List.mem_cons, List.not_mem_nil,
          or_false, Prod.mk.injEq] at hm
        obtain ⟨_, rfl⟩ := hm
        cases hs
        exact .inl rfl
    · cases h with
      | sub => exact .inr (.inl ⟨rfl, rfl⟩)
      | member _ n s _ hm => cases hm
    · cases h with
      | member _ n s _ hm => cases hm
    · cases h with
      | member _ n s _ hm => cases hm
  · simp only [a, List.mem_cons, List.not_mem_nil, or_false] at hd
    rcases hd with rfl | rfl
    · cases h with
      | member _ n s _ hm hs =>
        simp only [S, ADecl.inside, List.map_cons, List.map_nil, List.nil_append, List.append_nil, List.mem_cons, List.not_mem_nil,
          or_false, Prod.mk.injEq] at hm
        obtain ⟨_, rfl⟩ := hm
        cases hs
        exact .inr (.inr (.inl ⟨rfl, rfl⟩))
    · cases h with
      | member _ n s _ hm hs =>
        simp [C, ADecl.inside, c, one, AChoiceCase.fieldOf] at hm
        rcases hm with ⟨_, rfl⟩ | ⟨_, rfl⟩
        · cases hs
          exact .inr (.inr (.inr ⟨rfl, rfl⟩))
        · cases hs
          exact .inl rfl

theorem knows : Knows ps a where
  named := by
    intro q hq
    simp only [ps, List.mem_cons, List.not_mem_nil, or_false] at hq
    rcases hq with rfl | rfl <;> decide
  bound := by
    intro q hq _ d hd t hu hb
    have hab : Sees a b := .inr (by simp [a, b])
    rcases uses q hq d hd t hu with rfl | ⟨rfl, rfl⟩ | ⟨rfl, rfl⟩ | ⟨rfl, rfl⟩
    · cases hb
    · exact ⟨b, by simp [ps], rfl, .inl rfl, hab⟩
    · exact ⟨b, by simp [ps], rfl, hab, hab⟩
    · exact ⟨b, by simp [ps], rfl, hab, hab⟩
  stands := by
    intro q hq _ d hd t hu
    rcases uses q hq d hd t hu with rfl | ⟨rfl, rfl⟩ | ⟨rfl, rfl⟩ | ⟨rfl, rfl⟩
    · exact ⟨0, by omega, _, .builtin _ rfl⟩
    · exact ⟨1, by omega, _, standsP⟩
    · exact ⟨2, by omega, _, standsQ⟩
    · exact ⟨1, by omega, _, standsColor⟩
  unique := by
    intro q hq q' hq' _ _ d hd d' hd' hn
    have hno : ∀ n ∈ a.decls.map ADecl.name, n ∉ b.decls.map ADecl.name := by decide
    simp only [ps, List.mem_cons, List.not_mem_nil, or_false] at hq hq'
    rcases hq with rfl | rfl <;> rcases hq' with rfl | rfl
    · rfl
    · exact absurd (hn ▸ List.mem_map_of_mem (f := ADecl.name) hd) (hno _ (List.mem_map_of_mem hd'))
    · exact absurd (hn ▸ List.mem_map_of_mem (f := ADecl.name) hd') (hno _ (List.mem_map_of_mem hd))
    · rfl
  items := by
    intro q hq d hd
    simp only [ps, List.mem_cons, List.not_mem_nil, or_false] at hq
    rcases hq with rfl | rfl
    · simp only [b, List.mem_cons, List.not_mem_nil, or_false] at hd
      rcases hd with rfl | rfl | rfl | rfl <;> decide
    · simp only [a, List.mem_cons, List.not_mem_nil, or_false] at hd
      rcases hd with rfl | rfl <;> decide

def atP : Cur := fun q => if q = "b".toList then some "P".toList else none
def atS : Cur := fun q => if q = "a".toList then some "S".toList else atP q
def atC : Cur := fun q => if q = "a".toList then some "C".toList else atS q
theorem visits : evaluateModel (declOrder ps) = [⟨b, color, fun _ => none⟩, ⟨b, lamp, fun _ => none⟩, ⟨b, P, atP⟩, ⟨a, S, atS⟩, ⟨a, C, atC⟩] := rfl

theorem notShadowed (d : ADecl) (h : ∀ n ∈ d.inside.map Prod.fst, n ∉ (b.decls ++ a.decls).map ADecl.name) (n : List Char) :
    NotShadowed ps a d n := by
  rintro ⟨σ, hσ⟩
  have h2 := h n (List.mem_map_of_mem (f := Prod.fst) hσ)
  refine ⟨fun e he hen => h2 (hen ▸ List.mem_map_of_mem (f := ADecl.name) (List.mem_append_right _ he)), fun q hq e he hen => ?_⟩
  have := hq.1
  simp only [ps, List.mem_cons, List.not_mem_nil, or_false] at this
  rcases this with rfl | rfl
  · exact h2 (hen ▸ List.mem_map_of_mem (f := ADecl.name) (List.mem_append_left _ he))
  · exact h2 (hen ▸ List.mem_map_of_mem (f := ADecl.name) (List.mem_append_right _ he))

theorem imports (n : List Char) (hn : n ≠ ['*']) (q : List Char) : (q, n) ∉ a.imports := by
  intro h
  simp only [a, List.mem_cons, Prod.mk.injEq, List.not_mem_nil, or_false] at h
  exact hn h.2

/-- `p.x` in `S` is the field `x` of `P`, found through the subtype `Q`. -/
example : ∃ r ty, evalSymbol ps (writtenEnums ps) 101 atS a
    (.two .dot [] (.leaf .id "p".toList) (.leaf .unevaluatable "x".toList)) = some (r, ty) ∧ r.sym = .field (plain "x" u8) := by
  refine C77_path_partial ps noClash _ (declOrder_ok ps) _ 101 (by omega) ⟨a, S, atS⟩ (by rw [visits]; simp) (by simp [S, ADecl.isTemplate]) knows _ _
    (.member _ _ (.field (plain "p" (named "b" "Q"))) _ 2 P _ (.name _ _ (.member _ (by simp [S, ADecl.inside, plain])) (by intros; simp)
      (by intros; simp)) (.field _) (by omega) standsQ (by simp [P, ADecl.inside, plain]) trivial) ?_
  intro n hn
  simp only [AExpr.lookups, if_true, List.mem_append, List.mem_cons, List.not_mem_nil, or_false, reduceCtorEq, if_false] at hn
  subst hn
  exact ⟨trivial, notShadowed S (by decide) _, imports _ (by decide)⟩

/-- The label `RED` is the item of `Color`, not that of `Lamp`. -/
example : labelSymbol ps (writtenEnums ps) 101 atC a
    ((evalSymbol ps (writtenEnums ps) 101 atC a (.leaf .id c.name)).map fun r => r.1.sym) (.leaf .id red.name) = some (.item color red) := by
  refine C78_label_partial ps noClash _ (declOrder_ok ps) _ (writtenEnums_ok noClash.packages) 101 (by omega) ⟨a, C, atC⟩ (by rw [visits]; simp)
    (by simp [C, ADecl.isTemplate]) knows _ _ c _ _ _ rfl (by simp) (by simp [Reached, C, AChoiceCase.fieldOf])
    (notShadowed C (by decide) _) (imports _ (by decide)) 1 (by omega) color standsColor red (by simp [color, ADecl.enumItems]) ?_ ?_
  · intro q hq _
    simp only [ps, List.mem_cons, List.not_mem_nil, or_false] at hq
    rcases hq with rfl | rfl
    · exact .inr (by simp [a, b])
    · exact .inl rfl
  · intro q hq _ e he hn
    have : red.name ∉ (b.decls ++ a.decls).map ADecl.name := by decide
    simp only [ps, List.mem_cons, List.not_mem_nil, or_false] at hq
    exact absurd (hn ▸ List.mem_map_of_mem (f := ADecl.name)
      (by rcases hq with rfl | rfl
          · exact List.mem_append_left _ he
          · exact List.mem_append_right _ he)) this

end DotsExample

/-! ## What goes wrong -/

/-- **C77** fails for unions: there is nothing behind the dot after a member whose type is a union. -/
theorem C77_violated_union (ps : List APackage) (hc : NoClash ps) (ord : VisitOrder) (ho : ord.Ok ps) (order : EnumOrder) (fuel : Nat)
    (hfuel : 100 < fuel) (v : Visit) (hv : v ∈ evaluateModel ord) (ht : ¬ v.decl.isTemplate) (hk : Knows ps v.pkg) (a : AExpr) (s : SSym)
    (h : Means Reached ps v.pkg v.decl a s)
    (hl : ∀ n ∈ a.lookups, Reached v.decl n ∧ NotShadowed ps v.pkg v.decl n ∧ ∀ q, (q, n) ∉ v.pkg.imports)
    (t : ATypeRef) (hst : HasType s t) (k : Nat) (hkk : k ≤ 100) (u : ADecl) (hT : TypeStands ps k t (.decl u)) (hu : u.kind = .union)
    (n : List Char) :
    evalSymbol ps order fuel v.cur v.pkg (.two .dot [] a (.leaf .unevaluatable n)) = none := by
  obtain ⟨fuel, rfl⟩ : ∃ f, fuel = f + 1 := ⟨fuel - 1, by omega⟩
  obtain ⟨hp, hd⟩ := visit_declared ho hv
  obtain ⟨hloc, r, ty, hev, hrs, hty⟩ := path_eval ps hc ord ho order fuel (by omega) v hv ht hk a s h hl
  have hlink : s.link = some t ∧ s.reference = some t ∧ s.isOriginal = false := by cases hst <;> exact ⟨rfl, rfl, rfl⟩
  have hB : Behind ps s (.decl u) := .link s t k _ hlink.2.2 hlink.1 hkk hT
  have ho' := originalOf_behind hc hp hk hloc hB order fuel v.cur
  have hty' := hty _ hB
  have hcomp : ty = .compound := by
    simp only [tyOf, hu, Option.some.injEq] at hty'
    exact hty'.symm
  have hb : t.isBuiltin = false := by
    cases hT with
    | decl _ _ _ h => exact h
    | sub _ _ _ _ _ _ h => exact h
  obtain ⟨q0, hq0, hs0, d0, hd0, hu0⟩ := hloc t hlink.1
  obtain ⟨q1, hq1, hn1, _, hs1⟩ := hk.bound q0 hq0 hs0 d0 hd0 t hu0 hb
  obtain ⟨q, hq, hsq, heq, hco⟩ := compoundOf_stands hc hp hk hT order fuel v.cur u rfl (fuel + 1) v.pkg hp
    (fun _ => ⟨q1, hq1, hn1, hs1⟩)
    (fun q2 hq2 hn2 => by rw [inj_of_nodup_map hc.packages hq2 hq1 (hn2.trans hn1.symm)]; exact hs1) (by omega)
  simp only [evalSymbol, hev, dotSymbol, hrs, ho', hcomp, compoundDot, hlink.2.1, hco, hu, reduceCtorEq, or_self, if_false]

/-- **C77** fails for elements of arrays and for what is in parentheses: both have a type but no symbol, and a dot behind them is a panic. -/
theorem C77_violated_element (ps : List APackage) (order : EnumOrder) (fuel : Nat) (cur : Cur) (p : APackage) (a i : AExpr) (n : List Char) :
    evalSymbol ps order fuel cur p (.two .dot [] (.two .lbracket [] a i) (.leaf .unevaluatable n)) = none ∧
    evalSymbol ps order fuel cur p (.two .dot [] (.one .lparen [] a) (.leaf .unevaluatable n)) = none := by
  constructor <;> simp [evalSymbol]

namespace DotsExample

open ScopeExample (u8 named plain red)

def u16 : ATypeRef := .mk true [] "uint16".toList 0 [] [] none
/-- another `struct P { uint16 x; };`, in package `a` -/
def P' : ADecl := .struct "P".toList [] [] [plain "x" u16] []
/-- `struct T { b.P p; };` -/
def T : ADecl := .struct "T".toList [] [] [plain "p" (named "b" "P")] []
def a' : APackage := ⟨"a".toList, [("b".toList, ['*'])], [P', T]⟩

theorem noClash' : NoClash [b, a'] where
  packages := by decide
  decls := by
    intro p hp
    simp only [List.mem_cons, List.not_mem_nil, or_false] at hp
    rcases hp with rfl | rfl <;> decide
  members := by
    intro p hp d hd
    simp only [List.mem_cons, List.not_mem_nil, or_false] at hp
    rcases hp with rfl | rfl
    · simp only [b, List.mem_cons, List.not_mem_nil, or_false] at hd
      rcases hd with rfl | rfl | rfl | rfl <;> decide
    · simp only [a', List.mem_cons, List.not_mem_nil, or_false] at hd
      rcases hd with rfl | rfl <;> decide

/-- `struct R { S s; };` in package `d`, which imports `a`, but not `b` -/
def R : ADecl := .struct "R".toList [] [] [plain "s" (named "a" "S")] []
def d : APackage := ⟨"d".toList, [("a".toList, ['*'])], [R]⟩

theorem noClash'' : NoClash [b, a, d] where
  packages := by decide
  decls := by
    intro p hp
    simp only [List.mem_cons, List.not_mem_nil, or_false] at hp
    rcases hp with rfl | rfl | rfl <;> decide
  members := by
    intro p hp d hd
    simp only [List.mem_cons, List.not_mem_nil, or_false] at hp
    rcases hp with rfl | rfl | rfl
    · simp only [b, List.mem_cons, List.not_mem_nil, or_false] at hd
      rcases hd with rfl | rfl | rfl | rfl <;> decide
    · simp only [a, List.mem_cons, List.not_mem_nil, or_false] at hd
      rcases hd with rfl | rfl <;> decide
    · simp only [DotsExample.d, List.mem_cons, List.not_mem_nil, or_false] at hd
      rcases hd with rfl
      decide

/-- `bitmask uint8 Bits { READ };` and `choice M(Bits m) on m { case READ: uint8 r; };` -/
def read : AItem := ⟨"READ".toList, none⟩
def bits : ADecl := .bitmask "Bits".toList u8 [read]
def m : AParam := ⟨"m".toList, named "e" "Bits"⟩
def M : ADecl := .choice "M".toList [] [m] (.leaf .id "m".toList) [⟨[.leaf .id "READ".toList], some (plain "r" u8)⟩] none []
/-- `const uint8 LIMIT = 7;` and `choice N(uint8 n) on n { case LIMIT: uint8 r; };` -/
def limit : ADecl := .const "LIMIT".toList u8 (.leaf .decimalLiteral "7".toList)
def n : AParam := ⟨"n".toList, u8⟩
def N : ADecl := .choice "N".toList [] [n] (.leaf .id "n".toList) [⟨[.leaf .id "LIMIT".toList], some (plain "r" u8)⟩] none []
def e : APackage := ⟨"e".toList, [], [bits, M, limit, N]⟩

theorem noClash_e : NoClash [e] where
  packages := by decide
  decls := by
    intro p hp
    simp only [List.mem_cons, List.not_mem_nil, or_false] at hp
    subst hp
    decide
  members := by
    intro p hp d hd
    simp only [List.mem_cons, List.not_mem_nil, or_false] at hp
    subst hp
    simp only [e, List.mem_cons, List.not_mem_nil, or_false] at hd
    rcases hd with rfl | rfl | rfl | rfl <;> decide

def atM : Cur := fun q => if q = "e".toList then some "M".toList else none
def atN : Cur := fun q => if q = "e".toList then some "N".toList else atM q
theorem visits_e : evaluateModel (declOrder [e]) = [⟨e, limit, fun _ => none⟩, ⟨e, bits, fun _ => none⟩, ⟨e, M, atM⟩, ⟨e, N, atN⟩] := rfl

end DotsExample

open DotsExample ScopeExample in
/-- **C77** fails for types of the same name in two packages: a member of the wrong one is taken, although the reference says which. -/
theorem C77_violated_package : ∃ ps : List APackage, NoClash ps ∧ ∃ ord : VisitOrder, ord.Ok ps ∧ ∃ v ∈ evaluateModel ord, ∃ e : AExpr,
    ∃ f g : AField, f.type.name ≠ g.type.name ∧ Means (fun _ _ => True) ps v.pkg v.decl e (.field f) ∧
      ∀ order fuel, (evalSymbol ps order (fuel + 101) v.cur v.pkg e).map (fun r => r.1.sym) = some (.field g) := by
  refine ⟨[DotsExample.b, a'], noClash', declOrder _, declOrder_ok _,
    ⟨a', T, fun q => if q = "a".toList then some "T".toList else if q = "a".toList then some "P".toList else atP q⟩, ?_,
    .two .dot [] (.leaf .id "p".toList) (.leaf .unevaluatable "x".toList), plain "x" u8, plain "x" u16, by decide, ?_, fun order fuel => ?_⟩
  · have : evaluateModel (declOrder [DotsExample.b, a']) = [⟨DotsExample.b, DotsExample.color, fun _ => none⟩, ⟨DotsExample.b, DotsExample.lamp, fun _ => none⟩, ⟨DotsExample.b, P, atP⟩,
        ⟨a', P', fun q => if q = "a".toList then some "P".toList else atP q⟩,
        ⟨a', T, fun q => if q = "a".toList then some "T".toList else if q = "a".toList then some "P".toList else atP q⟩] := rfl
    rw [this]
    simp
  · refine .member _ _ (.field (plain "p" (named "b" "P"))) _ 1 P _ (.name _ _ (.member _ (by simp [T, ADecl.inside, plain])) (by intros; simp)
      (by intros; simp)) (.field _) (by omega) (.decl _ DotsExample.b P rfl (by simp) rfl (by simp [DotsExample.b]) rfl (by simp [P, ADecl.kind]))
      (by simp [P, ADecl.inside, plain]) trivial
  · rfl

open DotsExample ScopeExample in
/-- **C77** fails for types of packages that are only imported by a package that is imported. -/
theorem C77_violated_indirect : ∃ ps : List APackage, NoClash ps ∧ ∃ ord : VisitOrder, ord.Ok ps ∧ ∃ v ∈ evaluateModel ord, ∃ e : AExpr,
    ∃ f : AField, Means (fun _ _ => True) ps v.pkg v.decl e (.field f) ∧
      ∃ order : EnumOrder, order.Ok ps ∧ ∀ fuel, evalSymbol ps order (fuel + 101) v.cur v.pkg e = none := by
  refine ⟨[DotsExample.b, DotsExample.a, d], noClash'', declOrder _, declOrder_ok _,
    ⟨d, R, fun q => if q = "d".toList then some "R".toList else atS q⟩, ?_,
    .two .dot [] (.two .dot [] (.leaf .id "s".toList) (.leaf .unevaluatable "p".toList)) (.leaf .unevaluatable "x".toList),
    plain "x" u8, ?_, writtenEnums _, writtenEnums_ok noClash''.packages, fun fuel => ?_⟩
  · have : evaluateModel (declOrder [DotsExample.b, DotsExample.a, d]) = [⟨DotsExample.b, DotsExample.color, fun _ => none⟩,
        ⟨DotsExample.b, DotsExample.lamp, fun _ => none⟩, ⟨DotsExample.b, P, atP⟩, ⟨DotsExample.a, S, atS⟩,
        ⟨d, R, fun q => if q = "d".toList then some "R".toList else atS q⟩,
        ⟨DotsExample.a, C, fun q => if q = "a".toList then some "C".toList else if q = "d".toList then some "R".toList else atS q⟩] := rfl
    rw [this]
    simp
  · refine .member _ _ (.field (plain "p" (named "b" "Q"))) _ 2 P _ (.member _ _ (.field (plain "s" (named "a" "S"))) _ 1 S _
      (.name _ _ (.member _ (by simp [R, ADecl.inside, plain])) (by intros; simp) (by intros; simp)) (.field _) (by omega)
      (.decl _ DotsExample.a S rfl (by simp) rfl (by simp [DotsExample.a]) rfl (by simp [S, ADecl.kind]))
      (by simp [S, ADecl.inside, plain]) trivial) (.field _) (by omega)
      (.sub 1 _ DotsExample.b "Q".toList (named "b" "P") _ rfl (by simp) rfl (show Q ∈ DotsExample.b.decls by simp [DotsExample.b]) rfl
        (.decl _ DotsExample.b P rfl (by simp) rfl (by simp [DotsExample.b]) rfl (by simp [P, ADecl.kind])))
      (by simp [P, ADecl.inside, plain]) trivial
  · rfl

/-- **C78** fails for selectors that are no parameter by themselves, such as `s.kind`: no name is possible as label. -/
theorem C78_violated_selector (ps : List APackage) (order : EnumOrder) (fuel : Nat) (cur : Cur) (p : APackage) (s : SSym)
    (hs : ∀ a, s ≠ .param a) (n : List Char) : labelSymbol ps order fuel cur p (some s) (.leaf .id n) = none := by
  cases s with
  | param a => exact absurd rfl (hs a)
  | _ => rfl

open DotsExample in
/-- **C78** fails for bitmasks: a value of the bitmask that is the type of the parameter is not accepted as label. -/
theorem C78_violated_bitmask : ∃ ps : List APackage, NoClash ps ∧ ∃ ord : VisitOrder, ord.Ok ps ∧ ∃ v ∈ evaluateModel ord,
    ∃ (nm : List Char) (a : AParam) (cs : List AChoiceCase) (e : ADecl) (i : AItem),
      v.decl = .choice nm [] [a] (.leaf .id a.name) cs none [] ∧ TypeStands ps 1 a.type (.decl e) ∧ i ∈ e.bits ∧
      (∃ c ∈ cs, .leaf .id i.name ∈ c.conditions) ∧ ∃ order : EnumOrder, order.Ok ps ∧ ∀ fuel,
        (evalSymbol ps order (fuel + 101) v.cur v.pkg (.leaf .id a.name)).map (fun r => r.1.sym) = some (.param a) ∧
        labelSymbol ps order (fuel + 101) v.cur v.pkg (some (.param a)) (.leaf .id i.name) = none := by
  refine ⟨[e], noClash_e, declOrder _, declOrder_ok _, ⟨e, M, atM⟩, by rw [visits_e]; simp, _, m, _, bits, read, rfl,
    .decl _ e bits rfl (by simp) rfl (by simp [e]) rfl (by simp [bits, ADecl.kind]), by simp [bits, ADecl.bits], ⟨_, by simp; rfl, by simp [DotsExample.read]⟩,
    writtenEnums _, writtenEnums_ok noClash_e.packages, fun fuel => ⟨rfl, rfl⟩⟩

open DotsExample in
/-- **C78** fails for constants: the name of a constant is not accepted as label. -/
theorem C78_violated_const : ∃ ps : List APackage, NoClash ps ∧ ∃ ord : VisitOrder, ord.Ok ps ∧ ∃ v ∈ evaluateModel ord,
    ∃ (nm : List Char) (a : AParam) (cs : List AChoiceCase) (c : ADecl),
      v.decl = .choice nm [] [a] (.leaf .id a.name) cs none [] ∧ c.kind = .const ∧ Refers ps v.pkg v.decl c.name (.decl c) ∧
      (∃ d ∈ cs, .leaf .id c.name ∈ d.conditions) ∧ ∃ order : EnumOrder, order.Ok ps ∧ ∀ fuel,
        (evalSymbol ps order (fuel + 101) v.cur v.pkg (.leaf .id a.name)).map (fun r => r.1.sym) = some (.param a) ∧
        labelSymbol ps order (fuel + 101) v.cur v.pkg (some (.param a)) (.leaf .id c.name) = none := by
  refine ⟨[e], noClash_e, declOrder _, declOrder_ok _, ⟨e, N, atN⟩, by rw [visits_e]; simp, _, n, _, limit, rfl, rfl,
    .own limit (fun s h => ?_) (by simp [e]) rfl, ⟨_, by simp; rfl, by simp [limit, ADecl.name]⟩,
    writtenEnums _, writtenEnums_ok noClash_e.packages, fun fuel => ⟨rfl, rfl⟩⟩
  have : limit.name ∈ N.inside.map Prod.fst := List.mem_map_of_mem (f := Prod.fst) h
  revert this
  decide

end Verif
