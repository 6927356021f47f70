import Verif.Files

/-!
# C38, C52, C53: names of template instances, enum items and fields
-/

namespace Verif

/-! ## C38: template instances -/

/-- One word: a capital followed by no further capitals. -/
def OneWord : Text → Prop
  | [] => False
  | c :: cs => isCap c = true ∧ ∀ d ∈ cs, isCap d = false

theorem words_head {w : Text} {ws : List Text} (h : ∀ x ∈ w :: ws, OneWord x) :
    ∃ c cs, w = c :: cs ∧ isCap c = true ∧ ∀ d ∈ cs, isCap d = false := by
  have := h w (by simp)
  cases w with
  | nil => exact this.elim
  | cons c cs => exact ⟨c, cs, rfl, this.1, this.2⟩

theorem flatten_caps (ws : List Text) (h : ∀ x ∈ ws, OneWord x) :
    ws.flatten = [] ∨ ∃ c cs, ws.flatten = c :: cs ∧ isCap c = true := by
  cases ws with
  | nil => exact .inl rfl
  | cons w ws =>
    obtain ⟨c, cs, rfl, hc, _⟩ := words_head h
    exact .inr ⟨c, cs ++ ws.flatten, by simp, hc⟩

/-- A sequence of words can be read off their concatenation. -/
theorem words_unique (ws : List Text) : ∀ vs : List Text, (∀ x ∈ ws, OneWord x) → (∀ x ∈ vs, OneWord x) →
    ws.flatten = vs.flatten → ws = vs := by
  induction ws with
  | nil =>
    intro vs _ hv h
    cases vs with
    | nil => rfl
    | cons v vs =>
      obtain ⟨c, cs, rfl, _⟩ := words_head hv
      simp at h
  | cons w ws ih =>
    intro vs hw hv h
    cases vs with
    | nil =>
      obtain ⟨c, cs, rfl, _⟩ := words_head hw
      simp at h
    | cons v vs =>
      obtain ⟨c, cs, rfl, hc, hcs⟩ := words_head hw
      obtain ⟨d, ds, rfl, hd, hds⟩ := words_head hv
      simp only [List.flatten_cons, List.cons_append, List.cons.injEq] at h
      obtain ⟨rfl, h⟩ := h
      have key : cs = ds ∧ ws.flatten = vs.flatten := by
        rcases List.append_eq_append_iff.mp h with ⟨a, e1, e2⟩ | ⟨a, e1, e2⟩
        · cases a with
          | nil => simp_all
          | cons x a =>
            rcases flatten_caps ws fun x hx => hw x (by simp [hx]) with e | ⟨y, ys, e, hy⟩
            · rw [e] at e2; cases e2
            · rw [e] at e2
              injection e2 with e2 _
              subst e2
              have := hds y (by rw [e1]; simp)
              rw [hy] at this; cases this
        · cases a with
          | nil => simp_all
          | cons x a =>
            rcases flatten_caps vs fun x hx => hv x (by simp [hx]) with e | ⟨y, ys, e, hy⟩
            · rw [e] at e2; cases e2
            · rw [e] at e2
              injection e2 with e2 _
              subst e2
              have := hcs y (by rw [e1]; simp)
              rw [hy] at this; cases this
      rw [key.1, ih vs (fun x hx => hw x (by simp [hx])) (fun x hx => hv x (by simp [hx])) key.2]

/-- The words of an instantiation. -/
def instWords (template : Text) (args : List TArg) : List Text := title template :: args.map fun a => title a.name

/-- C38: if template and argument names are single words, the names of two instances are the same only if the names of
template and arguments are (up to the case of the first letter). -/
theorem C38_names_partial (t t' : Text) (as as' : List TArg) (h : ∀ x ∈ instWords t as, OneWord x)
    (h' : ∀ x ∈ instWords t' as', OneWord x) (he : generateInstantiatedName t as = generateInstantiatedName t' as') :
    title t = title t' ∧ (as.map fun a => title a.name) = as'.map fun a => title a.name := by
  have := words_unique (instWords t as) (instWords t' as') h h' (by simpa [instWords, generateInstantiatedName] using he)
  simpa [instWords] using this

/-- A name for which the generated name says everything: one word that starts with a capital already, no bit field width, no
arguments of its own, and the package `pkg`. -/
def SimpleArg (pkg : String) (a : TArg) : Prop := ∃ n, a = .mk pkg n 0 [] ∧ OneWord n

theorem title_oneWord (n : Text) (h : OneWord n) : title n = n := by
  cases n with
  | nil => rfl
  | cons c cs =>
    have hc := h.1
    have : isLow c = false := by
      simp only [isCap, isLow, Bool.and_eq_true, decide_eq_true_eq] at hc ⊢
      have h1 : 'Z'.toNat = 90 := by decide
      have h2 : 'a'.toNat = 97 := by decide
      rw [Bool.and_eq_false_iff]; left
      rw [decide_eq_false_iff_not]; omega
    simp [title, toCap, this]

theorem simpleArgs_eq (pkg : String) (as as' : List TArg) (h : ∀ a ∈ as, SimpleArg pkg a) (h' : ∀ a ∈ as', SimpleArg pkg a)
    (he : (as.map fun a => title a.name) = as'.map fun a => title a.name) : as = as' := by
  induction as generalizing as' with
  | nil => cases as' with
    | nil => rfl
    | cons a as' => simp at he
  | cons a as ih =>
    cases as' with
    | nil => simp at he
    | cons a' as' =>
      simp only [List.map_cons, List.cons.injEq] at he
      obtain ⟨n, rfl, hn⟩ := h a (by simp)
      obtain ⟨n', rfl, hn'⟩ := h' a' (by simp)
      have : n = n' := by
        have h1 := he.1
        simp only [TArg.name] at h1
        rwa [title_oneWord n hn, title_oneWord n' hn'] at h1
      subst this
      rw [ih as' (fun x hx => h x (by simp [hx])) (fun x hx => h' x (by simp [hx])) he.2]

/-- What a run of instantiations should do: every name it hands out stands for the instance asked for. -/
def InstSound (reqs : List (Text × List TArg)) (names : List Text) (t : DeclTable) : Prop :=
  List.Forall₂ (fun r n => t n = some (.inst r.1 r.2)) reqs names

theorem instantiate_keeps (t : DeclTable) (tm : Text) (as : List TArg) (n : Text) (d : InstDecl) (h : t n = some d) :
    (instantiate t tm as).2 n = some d := by
  unfold instantiate
  dsimp only
  split
  · exact h
  · rename_i hn
    dsimp only
    rw [Function.update_of_ne]
    · exact h
    · rintro rfl; rw [h] at hn; cases hn

theorem instantiateAll_keeps (reqs : List (Text × List TArg)) (t : DeclTable) (n : Text) (d : InstDecl) (h : t n = some d) :
    (instantiateAll t reqs).2 n = some d := by
  induction reqs generalizing t with
  | nil => exact h
  | cons r reqs ih =>
    obtain ⟨tm, as⟩ := r
    exact ih _ (instantiate_keeps t tm as n d h)

/-- C38: every field gets the instance it asks for, whatever else is instantiated in the package, if template names are
single words, arguments are simple, and no instance has the name of a declared type.
Missing: the conditions; without each of them it fails, see the next theorems. -/
theorem C38_instances_partial (pkg : String) (reqs : List (Text × List TArg)) (declared : List Text)
    (hr : ∀ r ∈ reqs, OneWord r.1 ∧ ∀ a ∈ r.2, SimpleArg pkg a)
    (hd : ∀ r ∈ reqs, generateInstantiatedName r.1 r.2 ∉ declared) :
    let res := instantiateAll (fun n => if n ∈ declared then some .plain else none) reqs
    InstSound reqs res.1 res.2 := by
  have key : ∀ (reqs : List (Text × List TArg)) (t : DeclTable),
      (∀ r ∈ reqs, OneWord r.1 ∧ ∀ a ∈ r.2, SimpleArg pkg a) →
      (∀ r ∈ reqs, ∀ d, t (generateInstantiatedName r.1 r.2) = some d → d = .inst r.1 r.2) →
      InstSound reqs (instantiateAll t reqs).1 (instantiateAll t reqs).2 := by
    intro reqs
    induction reqs with
    | nil => intro t _ _; exact .nil
    | cons r reqs ih =>
      intro t hr ht
      obtain ⟨tm, as⟩ := r
      have hfirst : (instantiate t tm as).2 (generateInstantiatedName tm as) = some (.inst tm as) := by
        unfold instantiate
        dsimp only
        split
        · rename_i d hd
          dsimp only
          rw [hd, ht (tm, as) (by simp) d hd]
        · simp
      refine .cons ?_ (ih (instantiate t tm as).2 (fun r hr' => hr r (by simp [hr'])) ?_)
      · have hname : (instantiate t tm as).1 = generateInstantiatedName tm as := by
          unfold instantiate; dsimp only; split <;> rfl
        simp only [hname]
        exact instantiateAll_keeps reqs (instantiate t tm as).2 _ _ hfirst
      · intro r' hr' d hd
        by_cases he : generateInstantiatedName r'.1 r'.2 = generateInstantiatedName tm as
        · rw [he, hfirst] at hd
          injection hd with hd
          obtain ⟨h1, h2⟩ := hr (tm, as) (by simp)
          obtain ⟨h3, h4⟩ := hr r' (by simp [hr'])
          have hw : ∀ (t : Text) (as : List TArg), OneWord t → (∀ a ∈ as, SimpleArg pkg a) → ∀ x ∈ instWords t as, OneWord x := by
            intro t as ht ha x hx
            rcases List.mem_cons.mp hx with rfl | hx
            · rwa [title_oneWord t ht]
            · obtain ⟨a, ham, rfl⟩ := List.mem_map.mp hx
              obtain ⟨n, rfl, hn⟩ := ha a ham
              simpa [TArg.name, title_oneWord n hn] using hn
          obtain ⟨e1, e2⟩ := C38_names_partial _ _ _ _ (hw _ _ h3 h4) (hw _ _ h1 h2) he
          rw [title_oneWord _ h3, title_oneWord _ h1] at e1
          rw [← hd, e1, simpleArgs_eq pkg _ _ h4 h2 e2]
        · refine ht r' (by simp [hr']) d ?_
          have : (instantiate t tm as).2 (generateInstantiatedName r'.1 r'.2) = t (generateInstantiatedName r'.1 r'.2) := by
            unfold instantiate
            dsimp only
            split
            · rfl
            · dsimp only
              rw [Function.update_of_ne he]
          rw [← this]; exact hd
  refine key reqs _ hr ?_
  intro r hr' d hd'
  rw [if_neg (hd r hr')] at hd'
  cases hd'

example : let reqs := [("Pair".toList, [TArg.mk "a" "Left".toList 0 [], TArg.mk "a" "Right".toList 0 []]),
      ("Pair".toList, [TArg.mk "a" "Right".toList 0 [], TArg.mk "a" "Left".toList 0 []])]
    (∀ r ∈ reqs, OneWord r.1 ∧ ∀ a ∈ r.2, SimpleArg "a" a) ∧
      (instantiateAll (fun _ => none) reqs).1 = ["PairLeftRight".toList, "PairRightLeft".toList] := by
  refine ⟨?_, by decide +kernel⟩
  have h1 : OneWord "Pair".toList := ⟨by decide, by decide⟩
  have h2 : OneWord "Left".toList := ⟨by decide, by decide⟩
  have h3 : OneWord "Right".toList := ⟨by decide, by decide⟩
  intro r hr
  simp only [List.mem_cons, List.not_mem_nil, or_false] at hr
  rcases hr with rfl | rfl
  · refine ⟨h1, ?_⟩
    intro a ha
    simp only [List.mem_cons, List.not_mem_nil, or_false] at ha
    rcases ha with rfl | rfl
    · exact ⟨_, rfl, h2⟩
    · exact ⟨_, rfl, h3⟩
  · refine ⟨h1, ?_⟩
    intro a ha
    simp only [List.mem_cons, List.not_mem_nil, or_false] at ha
    rcases ha with rfl | rfl
    · exact ⟨_, rfl, h3⟩
    · exact ⟨_, rfl, h2⟩

/-- The second of two requests gets the instance of the first. -/
def Confused (r r' : Text × List TArg) : Prop :=
  r ≠ r' ∧ let res := instantiateAll (fun _ => none) [r, r']
    ∃ n, res.1 = [n, n] ∧ res.2 n = some (.inst r.1 r.2)

theorem confused_of_name (r r' : Text × List TArg) (hne : r ≠ r')
    (hn : generateInstantiatedName r.1 r.2 = generateInstantiatedName r'.1 r'.2) : Confused r r' := by
  obtain ⟨t, as⟩ := r
  obtain ⟨t', as'⟩ := r'
  have hn' : generateInstantiatedName t as = generateInstantiatedName t' as' := hn
  refine ⟨hne, generateInstantiatedName t as, ?_, ?_⟩
  · simp [instantiateAll, instantiate, hn']
  · simp [instantiateAll, instantiate, hn']

/-- C38: instances for bit fields of different width are the same type. -/
theorem C38_violated_width : Confused ("Foo".toList, [.mk "" "bit".toList 5 []]) ("Foo".toList, [.mk "" "bit".toList 6 []]) :=
  confused_of_name _ _ (by simp) (by decide +kernel)

/-- C38: nested instances are told apart by the outermost argument name only. -/
theorem C38_violated_nested :
    Confused ("Foo".toList, [.mk "a" "Bar".toList 0 [.mk "" "uint8".toList 0 []]])
      ("Foo".toList, [.mk "a" "Bar".toList 0 [.mk "" "string".toList 0 []]]) :=
  confused_of_name _ _ (by simp) (by decide +kernel)

/-- C38: types of the same name from different packages are not told apart. -/
theorem C38_violated_package : Confused ("Foo".toList, [.mk "a" "T".toList 0 []]) ("Foo".toList, [.mk "b" "T".toList 0 []]) :=
  confused_of_name _ _ (by simp) (by decide +kernel)

/-- C38: instances of different templates, `Foo<Bar, Baz>` and `FooBar<Baz>`, are the same type. -/
theorem C38_violated_concatenation :
    Confused ("Foo".toList, [.mk "a" "Bar".toList 0 [], .mk "a" "Baz".toList 0 []]) ("FooBar".toList, [.mk "a" "Baz".toList 0 []]) :=
  confused_of_name _ _ (by simp) (by decide +kernel)

/-- C38: a declared type that happens to have the generated name is used instead of the instance. -/
theorem C38_violated_declared :
    ∃ name, let res := instantiateAll (fun n => if n ∈ [name] then some .plain else none) [("Foo".toList, [.mk "" "uint8".toList 0 []])]
      name = "FooUint8".toList ∧ res.1 = [name] ∧ res.2 name = some .plain := by
  refine ⟨generateInstantiatedName "Foo".toList [.mk "" "uint8".toList 0 []], by decide +kernel, ?_⟩
  generalize [TArg.mk "" "uint8".toList 0 []] = as
  generalize "Foo".toList = t
  simp [instantiateAll, instantiate]

/-! ## C52: Go names of enum items -/

theorem toLow_toCap_of_low (c : Char) (h : isLow c = true) : toLow (toCap c) = c := by
  simp only [isLow, Bool.and_eq_true, decide_eq_true_eq] at h
  have ha : 'a'.toNat = 97 := by decide
  have hz : 'z'.toNat = 122 := by decide
  have key : ∀ n, n < 123 → 97 ≤ n → toLow (toCap (Char.ofNat n)) = Char.ofNat n := by decide +kernel
  have := key c.toNat (by omega) (by omega)
  rwa [Char.ofNat_toNat] at this

theorem isCap_of_low (c : Char) (h : isLow c = true) : isCap c = false := by
  simp only [isLow, isCap, Bool.and_eq_true, decide_eq_true_eq] at h ⊢
  have ha : 'a'.toNat = 97 := by decide
  have hZ : 'Z'.toNat = 90 := by decide
  rw [Bool.and_eq_false_iff]; right
  rw [decide_eq_false_iff_not]; omega

theorem isNum_facts (c : Char) (h : isNum c = true) : isCap c = false ∧ isLow c = false ∧ toLow c = c ∧ toCap c = c := by
  simp only [isNum, Bool.and_eq_true, decide_eq_true_eq] at h
  have h0 : '0'.toNat = 48 := by decide
  have h9 : '9'.toNat = 57 := by decide
  have key : ∀ n, n < 58 → 48 ≤ n → isCap (Char.ofNat n) = false ∧ isLow (Char.ofNat n) = false ∧
      toLow (Char.ofNat n) = Char.ofNat n ∧ toCap (Char.ofNat n) = Char.ofNat n := by decide +kernel
  have := key c.toNat (by omega) (by omega)
  rwa [Char.ofNat_toNat] at this

theorem toLow_low (c : Char) (h : isLow c = true) : toLow c = c := by
  simp [toLow, isCap_of_low c h]

theorem camelLoop_lower (s : Text) (h : ∀ c ∈ s, isLow c = true ∨ isNum c = true) (a b f : Bool) :
    (camelLoop a b f s).map toLow = s := by
  induction s generalizing a b f with
  | nil => rfl
  | cons c s ih =>
    have ih := ih fun c hc => h c (by simp [hc])
    rcases h c (by simp) with hl | hn
    · have hc := isCap_of_low c hl
      have hv : toLow (if a then toCap c else if f then toLow c else if b && isCap c then toLow c else c) = c := by
        simp only [hc, Bool.and_false, Bool.false_eq_true, if_false]
        split_ifs
        · exact toLow_toCap_of_low c hl
        · rw [toLow_low c hl, toLow_low c hl]
        · exact toLow_low c hl
      rw [camelLoop]
      rw [if_pos (by simp [hl]), List.map_cons, hv, ih]
    · obtain ⟨h1, h2, h3, h4⟩ := isNum_facts c hn
      have hv : toLow (if a then toCap c else if f then toLow c else if b && isCap c then toLow c else c) = c := by
        simp only [h1, Bool.and_false, Bool.false_eq_true, if_false]
        split_ifs
        · rw [h4, h3]
        · rw [h3, h3]
        · exact h3
      rw [camelLoop]
      rw [if_neg (by simp [h1, h2]), if_pos hn, List.map_cons, hv, ih]

/-- C52: two items of an enum whose names consist of letters and digits and differ in more than case have different Go names.
Missing: names with underscores, see `C52_violated_underscore`. -/
theorem C52_item_names_partial (enum : Text) (x y : Text) (hx : ∀ c ∈ x.map toLow, isLow c = true ∨ isNum c = true)
    (hy : ∀ c ∈ y.map toLow, isLow c = true ∨ isNum c = true) (hne : x.map toLow ≠ y.map toLow) :
    enumItemGoName enum x ≠ enumItemGoName enum y := by
  intro h
  have h1 := List.append_cancel_left h
  apply hne
  rw [← camelLoop_lower _ hx true false true, ← camelLoop_lower _ hy true false true]
  exact congrArg _ h1

example : enumItemGoName "Color".toList "RED".toList = "ColorRed".toList ∧ enumItemGoName "Color".toList "RED2X".toList = "ColorRed2X".toList := by
  decide +kernel

/-- C52: items that differ in an underscore get the same Go name. -/
theorem C52_violated_underscore : enumItemGoName "E".toList "A1".toList = enumItemGoName "E".toList "A_1".toList := by
  decide +kernel

/-- C52: items of different enums get the same Go name. -/
theorem C52_violated_enums : enumItemGoName "Foo".toList "BAR_X".toList = enumItemGoName "FooBar".toList "X".toList := by
  decide +kernel

/-! ## C53: Go names of fields -/

/-- C53: capitalising keeps names apart that start with the same kind of letter. -/
theorem C53_titles_partial (x y : Text) (hne : x ≠ y) (h : (∀ c ∈ x.head?, isLow c = true) ∧ (∀ c ∈ y.head?, isLow c = true) ∨
    (∀ c ∈ x.head?, isLow c = false) ∧ (∀ c ∈ y.head?, isLow c = false)) : title x ≠ title y := by
  intro he
  apply hne
  cases x with
  | nil => cases y with
    | nil => rfl
    | cons d y => simp [title] at he
  | cons c x =>
    cases y with
    | nil => simp [title] at he
    | cons d y =>
      simp only [title, List.cons.injEq] at he
      simp only [List.head?_cons, Option.mem_def, Option.some.injEq, forall_eq'] at h
      rcases h with ⟨h1, h2⟩ | ⟨h1, h2⟩
      · have := congrArg toLow he.1
        rw [toLow_toCap_of_low c h1, toLow_toCap_of_low d h2] at this
        rw [this, he.2]
      · have := he.1
        simp only [toCap, h1, h2, Bool.false_eq_true, if_false] at this
        rw [this, he.2]

example : title "speedLimit".toList = "SpeedLimit".toList ∧ title "speed".toList = "Speed".toList := by decide +kernel

/-- C53: names that differ in the case of the first letter become the same. -/
theorem C53_violated_case : title "foo".toList = title "Foo".toList := by decide +kernel

end Verif
