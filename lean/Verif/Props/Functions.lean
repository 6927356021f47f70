import Verif.Functions
import Verif.Props.GenerateArith

/-!
# C93: the functions of a schema

A function of a schema becomes a method of the Go type which returns what the expression of the function denotes for the values of the parameters and
fields of the receiver, as a value of the declared return type.  The meaning of expressions and types is that of C90 (`NumMeans`, `CondMeans`,
`MemberType`).
-/

namespace Verif

/-- Numbers one of which a ternary expression chooses: integers and items of enums in any combination, or two values of the same enum or bitmask. -/
inductive Choosable : NumTy → NumTy → Prop
  | integers {t t' : NumTy} : (∀ i mask g, t ≠ .own i mask g) → (∀ i mask g, t' ≠ .own i mask g) → Choosable t t'
  | own {i : Nat} {mask : Bool} {g : GoNum} : Choosable (.own i mask g) (.own i mask g)

/-- The number that the result of a function denotes. -/
inductive ResultMeans (a : Place) : CExpr → (Env → Int) → Prop
  | plain {e : CExpr} {t : NumTy} {f : Env → Int} : NumMeans a e t f → ResultMeans a e f
  | ternary {c x y : CExpr} {t t' : NumTy} {h : Env → Bool} {f f' : Env → Int} : CondMeans a c h → NumMeans a x t f → NumMeans a y t' f' → Choosable t t' →
      ResultMeans a (.ternary c x y) (fun env => if h env then f env else f' env)

/-- The truth value that the result of a function denotes. -/
inductive TruthMeans (a : Place) : CExpr → (Env → Bool) → Prop
  | plain {e : CExpr} {f : Env → Bool} : CondMeans a e f → TruthMeans a e f
  | ternary {c x y : CExpr} {h f f' : Env → Bool} : CondMeans a c h → CondMeans a x f → CondMeans a y f' →
      TruthMeans a (.ternary c x y) (fun env => if h env then f env else f' env)

/-- What a function returns: the number that the expression denotes, if the declared type has it; otherwise the number of the declared type with the
same low bits. -/
inductive FunctionMeans (a : Place) (g : CFunction) : (Env → GVal) → Prop
  | number {k : Elem} {o : Option (Nat × Bool)} {w : GoNum} {f r : Env → Int} : MemberType a.schema g.type k o → k.goNum = some w →
      ResultMeans a g.result f → (∀ env, w.Holds (r env) ∧ (2 ^ w.width : Int) ∣ r env - f env) → FunctionMeans a g (fun env => .int (r env))
  | bool {f : Env → Bool} : MemberType a.schema g.type .bool none → TruthMeans a g.result f → FunctionMeans a g (fun env => .bool (f env))

/-- The methods for the functions of a declaration, with their names.  The expressions of a structure can use all its fields. The functions of a union
have builtin types and use no names (C76); those of a choice are not generated, so there are none here. -/
inductive MethodsMean (p : CPackage) : CDirective → List (List Char × (Env → GVal)) → Prop
  | structure {n : Ident} {ps : List CParam} {cs : List CField} {gs : List CFunction} {ms : List (List Char × (Env → GVal))} :
      List.Forall₂ (fun g m => m.1 = title g.name.text ∧ FunctionMeans ⟨p, ps, cs, cs.length⟩ g m.2) gs ms →
      MethodsMean p (.structure ⟨n, [], ps⟩ cs gs) ms
  | union {n : Ident} {ps : List CParam} {cs : List CChoiceField} {gs : List CFunction} {ms : List (List Char × (Env → GVal))} :
      List.Forall₂ (fun g m => m.1 = title g.name.text ∧ (∃ b, g.type = .builtin b) ∧ FunctionMeans ⟨p, [], [], 0⟩ g m.2) gs ms →
      MethodsMean p (.union ⟨n, [], ps⟩ cs gs) ms
  | choice {n : Ident} {ps : List CParam} {e : CExpr} {cs : List CChoiceCases} {d : Option (Option CChoiceField)} :
      MethodsMean p (.choice ⟨n, [], ps⟩ e cs d []) []
  | const {t : CTypeInst} {n : Ident} {v : CExpr} : MethodsMean p (.const t n v) []
  | subtype {r : CTypeRef} {n : Ident} : MethodsMean p (.subtype r n) []
  | enum {t : CTypeInst} {n : Ident} {is : List CEnumItem} : MethodsMean p (.enum t n is) []
  | bitmask {t : CTypeInst} {n : Ident} {vs : List CBitmaskValue} : MethodsMean p (.bitmask t n vs) []

section

variable {p : CPackage} {P : List Char} {q : APackage}

theorem MemberType.goes (h : Resolved p P q) {r : CTypeRef} {k : Elem} {o : Option (Nat × Bool)} (hm : MemberType p r k o) :
    q.namesGoType (finalRef P r) = true := by
  cases hm with
  | builtin h1 _ h3 => exact h.names_go h1 h3
  | enum h1 _ h3 => exact h.names_go h1 h3
  | bitmask h1 _ h3 => exact h.names_go h1 h3

/-- Conversion leaves the low bits. -/
theorem wrapTo_congr {w : GoNum} (hw : 1 ≤ w.width) {x y : Int} (h : w.Holds x) (hd : (2 ^ w.width : Int) ∣ x - y) : wrapTo w y = x := by
  rw [← wrapTo_holds h]
  have e : (2 * 2 ^ (w.width - 1) : Int) = 2 ^ w.width := by
    rw [mul_comm, ← pow_succ]
    congr 1
    omega
  unfold wrapTo
  rw [e]
  have h1 : x % 2 ^ w.width = y % 2 ^ w.width := Int.emod_eq_emod_iff_emod_sub_eq_zero.2 (Int.emod_eq_zero_of_dvd hd)
  split
  · rw [Int.add_emod, ← h1, ← Int.add_emod]
  · exact h1.symm

theorem goNum_width {k : Elem} {w : GoNum} (h : k.goNum = some w) (hd : ∃ b, TypeDenotes ⟨.builtin b, .none⟩ 0 k) : 1 ≤ w.width := by
  obtain ⟨b, hb⟩ := hd
  have := goNum_mem hb h
  simp only [goNums, List.mem_cons, List.not_mem_nil, or_false] at this
  rcases this with rfl | rfl | rfl | rfl | rfl | rfl | rfl | rfl <;> decide

theorem NumMeans.item_held {a : Place} {e : CExpr} {i : Nat} {w : GoNum} {f : Env → Int} (hm : NumMeans a e (.item i w) f) (vs : Env) :
    GoNum.Holds ⟨true, 64⟩ (f vs) := by
  generalize hg : NumTy.item i w = g at hm
  induction hm with
  | @field _ _ _ o => cases o <;> cases hg
  | @param _ _ _ o => cases o <;> cases hg
  | constant hi =>
    obtain ⟨_, _, _, _, _, _, _, _, _, _, hv, _⟩ := hi
    have := hv.bound
    simp only [GoNum.Holds, if_true]
    norm_num at this ⊢
    omega
  | parenthesized _ ih => exact ih hg
  | literal | item | lengthof | additive | additiveMixed | multiplyMixed | multiplicative | bitwiseAnd | bitwiseOr | bitwiseXor | shift => cases hg

section

variable {a : Place} {owner : Option (List Char)} {ms : Members}

/-- `int(…)` -/
theorem NumMeans.wrapped (hi : Inside a P q owner ms) {e : CExpr} {t : NumTy} {f : Env → Int} (hm : NumMeans a e t f) :
    lengthCode q owner ms (visitExpr e) = some fun env => wrapTo ⟨true, 64⟩ (f env) := by
  obtain ⟨x, e1, e2, ⟨⟨r, r1, r2⟩, c2, c3, c4, c5⟩, _, h0, h1, h2⟩ := hm.computes hi
  have ht : (GTy.named "int".toList).int (goScope q ms) = some ⟨true, 64⟩ := rfl
  have hcv : (convert (goScope q ms) (.named "int".toList) (numTyping P a.schema t f)).isSome = true := by
    generalize GTy.named "int".toList = T at ht
    cases hg : t.go P a.schema with
    | none =>
      have htc : t = .const := by cases t <;> first | rfl | cases hg
      simp [numTyping, hg, convert, representable, ht, ((h1 htc).2 _).2]
    | some s =>
      have hs := h0 s hg
      cases t with
      | const => cases hg
      | num => simp [numTyping, hg, convert, ht, int_scope, hs, NumTy.int]
      | own => simp [numTyping, hg, convert, ht, int_scope, hs, NumTy.int]
      | item => simp [numTyping, hg, convert, representable, ht, int_scope, hs, NumTy.int, hm.item_held]
  simp only [lengthCode, numberCode, goExpr, e1, r1, c2, if_true, c4, Option.map_some, hcv, c5]

theorem NumMeans.kind (hi : Inside a P q owner ms) {e : CExpr} {t : NumTy} {f : Env → Int} (hm : NumMeans a e t f) :
    resultKind q owner (visitExpr e) = some t.kind := by
  obtain ⟨x, e1, e2, ⟨⟨r, r1, r2⟩, c2, c3, c4, c5⟩, _⟩ := hm.computes hi
  simp only [resultKind, e1, r1, r2]

theorem NumMeans.result (hi : Inside a P q owner ms) {e : CExpr} {t : NumTy} {f : Env → Int} (hm : NumMeans a e t f) :
    ∃ s v, plainResult q owner ms (visitExpr e) = some (s, v) ∧ (s.int (goTypes q)).isSome = true ∧ (∀ env, v env = some (.int (f env))) ∧
      ∀ g, t.go P a.schema = some g → s = g := by
  obtain ⟨x, e1, e2, ⟨⟨r, r1, r2⟩, c2, c3, c4, c5⟩, _, h0, hc, hg⟩ := hm.computes hi
  have hd : ∃ s, declaredType (goScope q ms) (numTyping P a.schema t f) = some s ∧ (s.int (goTypes q)).isSome = true ∧ ∀ g, t.go P a.schema = some g → s = g := by
    cases hgo : t.go P a.schema with
    | none =>
      refine ⟨.named "int".toList, ?_, rfl, nofun⟩
      have ht : t = .const := by cases t <;> first | rfl | cases hgo
      have : GoNum.Holds ⟨true, 64⟩ (f ⟨[], []⟩) := ((hc ht).2 _).2
      have e : (GTy.named "int".toList).int (goScope q ms) = some ⟨true, 64⟩ := rfl
      have hr : representable (goScope q ms) (f ⟨[], []⟩) (.named "int".toList) = true := by
        unfold representable
        rw [e]
        exact decide_eq_true this
      simp only [numTyping, hgo, declaredType, hr, if_true]
    | some s =>
      refine ⟨s, by simp [numTyping, hgo, declaredType], ?_, fun g hg => Option.some.inj hg⟩
      rw [h0 s hgo]
      cases t with
      | const => cases hgo
      | num => rfl
      | own => rfl
      | item => rfl
  obtain ⟨s, s1, s2, s3⟩ := hd
  refine ⟨s, _, ?_, s2, fun env => c5 env, s3⟩
  simp only [plainResult, goExpr, e1, r1, c2, if_true, c4, Option.map_some, s1]

theorem CondMeans.result (hi : Inside a P q owner ms) {e : CExpr} {f : Env → Bool} (hm : CondMeans a e f) :
    resultKind q owner (visitExpr e) = some .bool ∧ ∃ x, goExpr q owner ms (visitExpr e) = some (x, .typed .bool none) ∧
      (∀ env, goEval (goScope q ms) (goMemberValues q ms env) x = some (.bool (f env))) ∧
      plainResult q owner ms (visitExpr e) = some (.bool, fun env => some (.bool (f env))) := by
  obtain ⟨x, e1, e2, ⟨r, r1, r2⟩, c2, c3, c4, c5⟩ := hm.computes hi
  refine ⟨by simp only [resultKind, e1, r1, r2], meant x.toPEx, ?_, c5, ?_⟩
  · simp only [goExpr, e1, r1, c2, if_true, c4, Option.map_some]
  · simp only [plainResult, goExpr, e1, r1, c2, if_true, c4, Option.map_some, declaredType, c5]

/-- What is returned. -/
def functionResult (q : APackage) (owner : Option (List Char)) (ms : Members) (e : AExpr) : Option (GTy × (Env → Option GVal)) :=
  match e with
  | .three .questionmark _ c x y => ternaryResult q owner ms c x y
  | e => plainResult q owner ms e

theorem plain_result {e : CExpr} (h : ∀ c x y, e ≠ .ternary c x y) : functionResult q owner ms (visitExpr e) = plainResult q owner ms (visitExpr e) := by
  unfold functionResult
  split
  · rename_i k c x y he
    cases e <;> simp_all [visitExpr, visitOne, visitTwo]
  · rfl

theorem NumMeans.not_ternary {e : CExpr} {t : NumTy} {f : Env → Int} (hm : NumMeans a e t f) : ∀ c x y, e ≠ .ternary c x y := by
  rintro c x y rfl
  cases hm with
  | literal h => cases h

theorem CondMeans.not_ternary {e : CExpr} {f : Env → Bool} (hm : CondMeans a e f) : ∀ c x y, e ≠ .ternary c x y := by
  rintro c x y rfl
  cases hm

/-- A number, up to what does not fit 64 bits. -/
theorem ResultMeans.code (hi : Inside a P q owner ms) {e : CExpr} {f : Env → Int} (hm : ResultMeans a e f) :
    ∃ s v, functionResult q owner ms (visitExpr e) = some (s, v) ∧ (s.int (goTypes q)).isSome = true ∧
      ∀ env, ∃ z, v env = some (.int z) ∧ (2 ^ 64 : Int) ∣ f env - z := by
  cases hm with
  | plain h =>
    obtain ⟨s, v, h1, h2, h3, _⟩ := h.result hi
    exact ⟨s, v, (plain_result h.not_ternary).trans h1, h2, fun env => ⟨_, h3 env, by simp⟩⟩
  | @ternary c x y t t' h f f' hc hx hy ht =>
    have wrap : ∀ z : Int, (2 ^ 64 : Int) ∣ z - wrapTo ⟨true, 64⟩ z := by
      intro z
      simp only [wrapTo, if_true]
      norm_num
      omega
    have eb := hc.code hi
    have e0 : functionResult q owner ms (visitExpr (.ternary c x y)) = ternaryResult q owner ms (visitExpr c) (visitExpr x) (visitExpr y) := rfl
    rw [e0]
    cases ht with
    | integers h1 h2 =>
      have k1 : t.kind = .integer := by cases t <;> first | rfl | exact absurd rfl (h1 _ _ _)
      have k2 : t'.kind = .integer := by cases t' <;> first | rfl | exact absurd rfl (h2 _ _ _)
      refine ⟨.named "int".toList, fun env => some (.int (if h env then wrapTo ⟨true, 64⟩ (f env) else wrapTo ⟨true, 64⟩ (f' env))), ?_, rfl, fun env => ⟨_, rfl, ?_⟩⟩
      · simp only [ternaryResult, eb, hx.kind hi, hy.kind hi, k1, k2, hx.wrapped hi, hy.wrapped hi, if_true, ne_eq, not_true_eq_false, if_false]
      · dsimp only
        cases h env <;> exact wrap _
    | @own i mask g =>
      obtain ⟨s, v, s1, s2, s3, s4⟩ := hy.result hi
      obtain ⟨u, e1, e2, ⟨⟨r, r1, r2⟩, c2, c3, c4, c5⟩, _, h0, _, _⟩ := hx.computes hi
      obtain rfl := s4 _ rfl
      have hk : (NumTy.own i mask g).kind ≠ .integer := by cases mask <;> simp [NumTy.kind]
      have hgo : goExpr q owner ms (visitExpr x) = some (meant u.toPEx, numTyping P a.schema (.own i mask g) f) := by
        simp only [goExpr, e1, r1, c2, if_true, c4, Option.map_some]
      have has : assignable (goScope q ms) (.named (P ++ '.' :: a.schema.typeNames.getD i [])) (numTyping P a.schema (.own i mask g) f) = true := by
        simp [numTyping, NumTy.go, assignable]
      refine ⟨_, fun env => if h env then goEval (goScope q ms) (goMemberValues q ms env) (meant u.toPEx) else v env, ?_, s2, fun env => ?_⟩
      · simp only [ternaryResult, eb, hx.kind hi, hy.kind hi, if_neg hk, hgo, s1, has, if_true, ne_eq, not_true_eq_false, if_false]
      · dsimp only
        cases hb : h env with
        | true => exact ⟨_, c5 env, by simp⟩
        | false => exact ⟨_, s3 env, by simp⟩

theorem TruthMeans.code (hi : Inside a P q owner ms) {e : CExpr} {f : Env → Bool} (hm : TruthMeans a e f) :
    functionResult q owner ms (visitExpr e) = some (.bool, fun env => some (.bool (f env))) := by
  cases hm with
  | plain h => rw [plain_result h.not_ternary, (h.result hi).2.choose_spec.2.2]
  | @ternary c x y h f f' hc hx hy =>
    have eb := hc.code hi
    have e0 : functionResult q owner ms (visitExpr (.ternary c x y)) = ternaryResult q owner ms (visitExpr c) (visitExpr x) (visitExpr y) := rfl
    obtain ⟨k1, u, u1, u2, _⟩ := hx.result hi
    obtain ⟨k2, _, _, _, v3⟩ := hy.result hi
    have has : assignable (goScope q ms) .bool (.typed .bool none) = true := by simp [assignable]
    rw [e0]
    simp only [ternaryResult, eb, k1, k2, u1, v3, has, if_true, ne_eq, not_true_eq_false, if_false, reduceCtorEq, u2]
    congr 2
    funext env
    split <;> rfl

end

theorem FunctionMeans.code {a : Place} (h : Resolved a.schema P q) {owner : Option (List Char)} {ms : Members} (hi : Inside a P q owner ms)
    {g : CFunction} {F : Env → GVal} (hm : FunctionMeans a g F) :
    functionCode q owner ms ⟨g.name.text, finalRef P g.type, visitExpr g.result⟩ = some F := by
  have e0 : ∀ g : AFunction, functionCode q owner ms g = match functionType q g.returnType, functionResult q owner ms g.result with
    | some t, some (s, v) =>
      match s.int (goTypes q), t.int (goTypes q) with
      | some _, some w => some fun env => match v env with
        | some (.int z) => .int (wrapTo w z)
        | _ => .int 0
      | none, none => if s = .bool && t = .bool then some fun env => .bool (v env == some (.bool true)) else none
      | _, _ => none
    | _, _ => none := fun g => rfl
  rw [e0]
  cases hm with
  | @number k o w f r0 h1 h2 h3 h4 =>
    obtain ⟨_, ⟨T, t1, t2, t3⟩⟩ := hi.numbers h1 h2
    rw [(of_ne_const o w).2] at t3
    obtain ⟨s, v, s1, s2, s4⟩ := h3.code hi
    obtain ⟨w', s3⟩ := Option.isSome_iff_exists.1 s2
    simp only [functionType, MemberType.goes h h1, if_true, t2, s1, s3, t3]
    congr 1
    funext env
    obtain ⟨z, z1, z2⟩ := s4 env
    have hw : w.width ≤ 64 := by
      obtain ⟨b, hb⟩ := h1.denotes
      have := goNum_mem hb h2
      simp only [goNums, List.mem_cons, List.not_mem_nil, or_false] at this
      rcases this with rfl | rfl | rfl | rfl | rfl | rfl | rfl | rfl <;> decide
    have hd : (2 ^ w.width : Int) ∣ r0 env - z := by
      have h5 := Int.dvd_add (h4 env).2 ((pow_dvd_pow 2 hw).trans z2)
      simpa using h5
    simp only [z1, wrapTo_congr (goNum_width h2 h1.denotes) (h4 env).1 hd]
  | @bool f h1 h2 =>
    have : GTy.bool.int (goTypes q) = none := rfl
    simp only [functionType, MemberType.goes h h1, if_true, (hi.bools h1).2, h2.code hi, this, decide_true, Bool.and_self]
    congr 1
    funext env
    cases f env <;> rfl

theorem Resolved.functions (h : Resolved p P q) {d : CDirective} {o : Option Decl} {ms : List (List Char × (Env → GVal))} (hin : d ∈ p.directives)
    (hd : DirectiveMeans p d o) (hm : MethodsMean p d ms) : functionsOf q (finalDecl P d) = some ms := by
  cases hm with
  | @«structure» n ps cs gs ms h1 =>
    cases hd with
    | @«structure» _ _ _ fs _ k0 k1 hn hps k2 =>
      have hi := h.structInside hin hn cs.length
      refine (visitAll_iff _ _ _).2 (forall₂_map_left (f := fun g : CFunction => (⟨g.name.text, finalRef P g.type, visitExpr g.result⟩ : AFunction))
        (h1.imp fun g m hg => ?_))
      have := FunctionMeans.code (a := ⟨p, ps, cs, cs.length⟩) h hi hg.2
      simp only [namedFunction, this, Option.map_some, ← hg.1]
  | @union n ps cs gs ms h1 =>
    cases hd with
    | @union _ _ _ fs _ k1 hn hps =>
      have hi := h.unionInside hn
      refine (visitAll_iff _ _ _).2 (forall₂_map_left (f := visitFunction) (h1.imp fun g m hg => ?_))
      have := FunctionMeans.code (a := ⟨p, [], [], 0⟩) h hi hg.2.2
      obtain ⟨b, hb⟩ := hg.2.1
      have e : visitFunction g = ⟨g.name.text, finalRef P g.type, visitExpr g.result⟩ := by
        rw [hb]
        simp only [visitFunction, hb]
        rfl
      rw [e]
      simp only [namedFunction, this, Option.map_some, ← hg.1]
  | choice => rfl
  | const => rfl
  | subtype => rfl
  | enum => rfl
  | bitmask => rfl

end

/-- What is generated for the functions, behind resolution. -/
theorem functions_resolved_of {p : CPackage} {s : List Char}
    (hs : compileFunctions s = (do let ps ← loadPackages [] [p]; let ps ← resolveModel ps; let q ← ps.head?; visitAll (functionsOf q) q.decls))
    (hc : Closed p) {os : List (Option Decl)} (hm : List.Forall₂ (DirectiveMeans p) p.directives os) :
    ∃ P q, Resolved p P q ∧ compileFunctions s = visitAll (functionsOf q) (p.directives.map (finalDecl P)) := by
  cases hn : p.name with
  | none => exact absurd hn hc.named
  | some n =>
    obtain ⟨P, q, e, hr⟩ := resolved_package hc.nodup (first := n.1) (rest := n.2) hn hc.alone hm
    obtain ⟨ps, e3, e⟩ := Option.bind_eq_some_iff.1 e
    obtain ⟨ps', e4, e⟩ := Option.bind_eq_some_iff.1 e
    refine ⟨P, q, hr, ?_⟩
    rw [hs]
    simp only [bind, e3, e4, e, Option.bind_some, hr.decls]

/-- What is generated from a text is generated from what the text declares. -/
theorem compileFunctions_read {p : CPackage} {s : List Char} (ht : TextOf p s) :
    compileFunctions s = (do let ps ← loadPackages [] [p]; let ps ← resolveModel ps; let q ← ps.head?; visitAll (functionsOf q) q.decls) := by
  obtain ⟨⟨ps, rfl, h1, h2, h3⟩, h4⟩ := ht
  obtain ⟨ts, e1, e2⟩ := Option.bind_eq_some_iff.1 (C85_text_partial h4 h1 h2 h3)
  simp only [compileFunctions, bind, e1, e2, Option.bind_some]

theorem functions_resolved {p : CPackage} {s : List Char} (ht : TextOf p s) (hc : Closed p) {os : List (Option Decl)}
    (hm : List.Forall₂ (DirectiveMeans p) p.directives os) :
    ∃ P q, Resolved p P q ∧ compileFunctions s = visitAll (functionsOf q) (p.directives.map (finalDecl P)) :=
  functions_resolved_of (compileFunctions_read ht) hc hm

theorem functions_of_package {p : CPackage} {s : List Char}
    (hs : compileFunctions s = (do let ps ← loadPackages [] [p]; let ps ← resolveModel ps; let q ← ps.head?; visitAll (functionsOf q) q.decls))
    (hc : Closed p) {ds : List Decl} (hm : SchemaMeans p ds)
    {ms : List (List (List Char × (Env → GVal)))} (hf : List.Forall₂ (MethodsMean p) p.directives ms) : compileFunctions s = some ms := by
  obtain ⟨os, hm, rfl⟩ := hm
  obtain ⟨P, q, hr, e⟩ := functions_resolved_of hs hc hm
  rw [e]
  refine (visitAll_iff _ _ _).2 (forall₂_map_left (f := finalDecl P) ?_)
  refine forall₂_of_get hf.length_eq fun j d m hd hm' => ?_
  obtain ⟨l, e5⟩ := List.getElem?_eq_some_iff.1 hd
  obtain ⟨l', e6⟩ := List.getElem?_eq_some_iff.1 hm'
  have k1 := List.Forall₂.get hf (i := j) l l'
  have k2 := List.Forall₂.get hm (i := j) l (by rw [← hm.length_eq]; exact l)
  simp only [List.get_eq_getElem, e5, e6] at k1 k2
  exact hr.functions (by rw [← e5]; exact List.getElem_mem l) k2 k1

/-- **C93**: from the text of a schema every function becomes a method, with the name of the function, that returns what the expression of the function
denotes, converted to the declared type.

Missing: functions of choices (not generated, below), calls of functions in expressions, ternary expressions inside others, return types other than
integers, `bool`, enums and bitmasks, and what is missing in C90. -/
theorem C93_functions_partial {p : CPackage} {s : List Char} (ht : TextOf p s) (hc : Closed p) {ds : List Decl} (hm : SchemaMeans p ds)
    {ms : List (List (List Char × (Env → GVal)))} (hf : List.Forall₂ (MethodsMean p) p.directives ms) : compileFunctions s = some ms :=
  functions_of_package (compileFunctions_read ht) hc hm hf

/-! ## A case -/

/-- `function uint16 f() { return n + 1; }` -/
def exFunctionF : CFunction := ⟨.builtin (.word .uint16), exIdent 'f', .additive .plus (exRef 'n') (exDigit '1')⟩

/-- `function bool g() { return n > m; }` -/
def exFunctionG : CFunction := ⟨.builtin (.word .bool), exIdent 'g', .relational .gt (exRef 'n') (exRef 'm')⟩

/-- `function uint8 h() { return 300; }` -/
def exFunctionH : CFunction := ⟨.builtin (.word .uint8), exIdent 'h', .literal .decimal ['3', '0', '0']⟩

/-- `function uint16 k() { return n > m ? n : 300; }` -/
def exFunctionK : CFunction :=
  ⟨.builtin (.word .uint16), exIdent 'k', .ternary (.relational .gt (exRef 'n') (exRef 'm')) (exRef 'n') (.literal .decimal ['3', '0', '0'])⟩

/-- `uint8 n; uint8 m;` -/
def exFunctionFields : List CField := [exField (.builtin (.word .uint8)) (exIdent 'n'), exField (.builtin (.word .uint8)) (exIdent 'm')]

/-- `package p; struct S { uint8 n; uint8 m; function uint16 f() { return n + 1; } function bool g() { return n > m; }
function uint8 h() { return 300; } function uint16 k() { return n > m ? n : 300; } };` -/
def exFunctions : CPackage :=
  ⟨none, some (exIdent 'p', []), [], [.structure ⟨exIdent 'S', [], []⟩ exFunctionFields [exFunctionF, exFunctionG, exFunctionH, exFunctionK]]⟩

theorem exFunctions_means : SchemaMeans exFunctions
    [.struct [⟨noExprs, 0, false, .prim (.bits 8 8), none, false⟩, ⟨noExprs, 0, false, .prim (.bits 8 8), none, false⟩]] := by
  have n8 : TypeDenotes ⟨.builtin (.word .uint8), .none⟩ 0 (.bits 8 8) := .unsigned (.word .uint8) 8 0 trivial rfl
  refine ⟨[some (.struct _)], .cons ?_ .nil, rfl⟩
  refine .structure rfl (fun j c f hc hf => ?_) (by decide) (fun g hg => by cases hg) (fun g hg => ?_)
  · rcases j with _ | _ | j
    · cases hc; cases hf
      exact .plain rfl rfl rfl .no rfl (.builtin n8) .no
    · cases hc; cases hf
      exact .plain rfl rfl rfl .no rfl (.builtin n8) .no
    · cases hc
  · simp only [List.mem_cons, List.not_mem_nil, or_false] at hg
    rcases hg with rfl | rfl | rfl | rfl <;> trivial

/-- The number in field `i`. -/
def exReceiverByte (i : Nat) (env : Env) : Int := (Val.asBits 8 (env.fields.getD i .none)).toNat

/-- The methods. -/
def exMethods : List (List (List Char × (Env → GVal))) :=
  [[(['F'], fun env => .int (wrapTo ⟨false, 8⟩ (exReceiverByte 0 env + 1))), (['G'], fun env => .bool (decide (exReceiverByte 0 env > exReceiverByte 1 env))),
    (['H'], fun _ => .int 44), (['K'], fun env => .int (if exReceiverByte 0 env > exReceiverByte 1 env then exReceiverByte 0 env else 300))]]

theorem exFunctions_methods : List.Forall₂ (MethodsMean exFunctions) exFunctions.directives exMethods := by
  have n8 : TypeDenotes ⟨.builtin (.word .uint8), .none⟩ 0 (.bits 8 8) := .unsigned (.word .uint8) 8 0 trivial rfl
  have n16 : TypeDenotes ⟨.builtin (.word .uint16), .none⟩ 0 (.bits 16 16) := .unsigned (.word .uint16) 16 0 trivial rfl
  have m8 : MemberType exFunctions (.builtin (.word .uint8)) (.bits 8 8) none := .builtin (.builtin n8) (by omega) nofun
  have hn : NumMeans ⟨exFunctions, [], exFunctionFields, 2⟩ (exRef 'n') (.num ⟨false, 8⟩) (exReceiverByte 0) :=
    .field (k := .bits 8 8) (o := none) (.mk rfl (by decide) rfl rfl rfl rfl m8 (by decide)) rfl
  have hm : NumMeans ⟨exFunctions, [], exFunctionFields, 2⟩ (exRef 'm') (.num ⟨false, 8⟩) (exReceiverByte 1) :=
    .field (k := .bits 8 8) (o := none) (.mk rfl (by decide) rfl rfl rfl rfl m8 (by decide)) rfl
  have h300 : LitMeans (.literal .decimal ['3', '0', '0']) 300 :=
    LitMeans.literal (l := .decimal) (ds := [3, 0, 0]) (.decimal _ _ (.cons (.inl (by decide)) (.cons (.inl (by decide)) (.cons (.inl (by decide)) .nil)))
      (by simp)) (by simp) (by decide) nofun (by decide)
  refine .cons (.structure (.cons ⟨by decide, ?_⟩ (.cons ⟨by decide, ?_⟩ (.cons ⟨by decide, ?_⟩ (.cons ⟨by decide, ?_⟩ .nil))))) .nil
  · refine .number (k := .bits 16 16) (w := ⟨false, 16⟩) (.builtin (.builtin n16) (by omega) nofun) rfl
      (.plain (.additive hn (.literal (digit_means (d := 1) (.inl (by decide)) (by decide) (by decide))) (.right (g := ⟨false, 8⟩) fun _ => ?_) (by decide) (by decide)))
      fun env => ⟨?_, ?_⟩
    · decide
    · have := wrapTo_held (g := ⟨false, 8⟩) (by decide) (exReceiverByte 0 env + 1)
      simp only [GoNum.Holds, Bool.false_eq_true, if_false] at this ⊢
      exact ⟨this.1, lt_trans this.2 (by decide)⟩
    · exact ⟨0, by simp [AddOp.apply]⟩
  · exact .bool (.builtin (.builtin (.word .bool 0 .bool rfl)) (by omega) nofun) (.plain (.relational (op := .gt) hn hm (.same nofun)))
  · exact .number (w := ⟨false, 8⟩) (k := .bits 8 8) (f := fun _ => 300) m8 rfl (.plain (.literal h300)) fun _ => ⟨by decide, by decide⟩
  · refine .number (w := ⟨false, 16⟩) (k := .bits 16 16) (.builtin (.builtin n16) (by omega) nofun) rfl
      (.ternary (.relational (op := .gt) hn hm (.same nofun)) hn (.literal h300) (.integers nofun nofun)) fun env => ⟨?_, ⟨0, ?_⟩⟩
    · have := (Val.asBits 8 (env.fields.getD 0 .none)).isLt
      have pick : ∀ (b : Prop) [Decidable b] (z : Int), 0 ≤ z → z < 256 → (⟨false, 16⟩ : GoNum).Holds (if b then z else 300) := by
        intro b _ z h0 h1
        by_cases hb : b <;> simp [GoNum.Holds, hb] <;> omega
      exact pick _ _ (by simp [exReceiverByte]) (by simp only [exReceiverByte]; omega)
    · simp [RelOp.holds]

theorem exFunctions_readable : ∀ d ∈ exFunctions.directives, d.Readable := by
  have plain : ∀ f : CField, f.constraint = none → f.offset = none → ∀ (e : CExpr) (g : CField), f.bodyTokens ≠ e.tokens ++ .sym .colon :: g.bodyTokens :=
    fun f h _ => C85_plain (Or.inr (Or.inr (Or.inr (Or.inr (Or.inr (Or.inr (Or.inl h)))))))
  intro d hd
  simp only [exFunctions, List.mem_cons, List.not_mem_nil, or_false] at hd
  subst hd
  refine ⟨fun f hf => ?_, fun g hg => ?_⟩
  · simp only [exFunctionFields, List.mem_cons, List.not_mem_nil, or_false] at hf
    rcases hf with rfl | rfl
    all_goals
      refine ⟨?_, trivial, ?_, trivial, ?_, trivial, plain _ rfl⟩
      all_goals simp [CFieldTypeId.Readable, CTypeInst.Readable, OptGrouped, CExpr.Grouped, exField, exRef, exDigit, LeftToRight, CExpr.binds]
  · simp only [List.mem_cons, List.not_mem_nil, or_false] at hg
    rcases hg with rfl | rfl | rfl | rfl
    all_goals simp [exFunctionF, exFunctionG, exFunctionH, exFunctionK, CExpr.Grouped, exRef, exDigit, LeftToRight, CExpr.binds]

/-- Its tokens. -/
def exFunctionsTokens : List Token := List.flatten
  [[.keyword .package, .id (exIdent 'p'), .sym .semicolon, .keyword .struct, .id (exIdent 'S'), .sym .lbrace],
    CTypeRef.tokens (.builtin (.word .uint8)), [.id (exIdent 'n'), .sym .semicolon], CTypeRef.tokens (.builtin (.word .uint8)), [.id (exIdent 'm'), .sym .semicolon],
    exFunctionF.tokens, exFunctionG.tokens, exFunctionH.tokens, exFunctionK.tokens, [.sym .rbrace, .sym .semicolon]]

theorem exFunctions_text : TextOf exFunctions (piecesText (spaced exFunctionsTokens)) := by
  have h : PackageWritten exFunctions exFunctionsTokens := ⟨_, .cons (.structure _ _ _) .nil, by decide +kernel⟩
  have hf := spaced_fits (ts := exFunctionsTokens) fun t ht => fineToken_proper ((List.all_eq_true (p := fineToken)).1 (by decide +kernel) t ht)
  exact ⟨⟨_, rfl, hf.1, hf.2.1, by rw [hf.2.2]; exact h⟩, exFunctions_readable⟩

/-- The text. -/
example : piecesText (spaced exFunctionsTokens) = ("package p ; struct S { uint8 n ; uint8 m ; function uint16 f ( ) { return n + 1 ; } " ++
    "function bool g ( ) { return n > m ; } function uint8 h ( ) { return 300 ; } function uint16 k ( ) { return n > m ? n : 300 ; } } ; ").toList := by
  decide +kernel

/-- C93 for this text. -/
theorem exFunctions_compiles : compileFunctions (piecesText (spaced exFunctionsTokens)) = some exMethods :=
  C93_functions_partial exFunctions_text ⟨nofun, rfl, by decide⟩ exFunctions_means exFunctions_methods

/-- For `{n: 9, m: 4}` the methods return 10, `true`, 44 and 9. -/
example : (exMethods.map fun ms => ms.map fun m => m.2 ⟨[], [.bits 8 9#8, .bits 8 4#8]⟩) = [[.int 10, .bool true, .int 44, .int 9]] := by
  decide +kernel

/-! ## Where it does not hold -/

/-- **C93, violated**: `function uint8 h() { return 300; }` is accepted, and returns 44; `function uint16 f() { return n + 1; }` returns 0 for
`n = 255`. -/
theorem C93_violated_range : ∃ (p : CPackage) (s : List Char) (ms : List (List (List Char × (Env → GVal)))), TextOf p s ∧ compileFunctions s = some ms ∧
    (∃ fs f g h k, p.directives = [.structure ⟨exIdent 'S', [], []⟩ fs [f, g, h, k]] ∧ fs = [exField (.builtin (.word .uint8)) (exIdent 'n'), exField (.builtin (.word .uint8)) (exIdent 'm')] ∧
      f = ⟨.builtin (.word .uint16), exIdent 'f', .additive .plus (.identifier (exIdent 'n')) (.literal .decimal ['1'])⟩ ∧
      h = ⟨.builtin (.word .uint8), exIdent 'h', .literal .decimal ['3', '0', '0']⟩) ∧
    (∃ f g h k, ms = [[(['F'], f), (['G'], g), (['H'], h), (['K'], k)]] ∧ f ⟨[], [.bits 8 255#8, .bits 8 0#8]⟩ = .int 0 ∧ ∀ env, h env = .int 44) :=
  ⟨exFunctions, _, exMethods, exFunctions_text, exFunctions_compiles, ⟨_, _, _, _, _, rfl, rfl, rfl, rfl⟩, ⟨_, _, _, _, rfl, by decide +kernel, fun _ => rfl⟩⟩

/-- `package p; choice C(uint8 x) on x { case 1: uint16 a; function uint8 f() { return x; } };` -/
def exFunctionChoice : CPackage := ⟨none, some (exIdent 'p', []), [],
  [.choice ⟨exIdent 'C', [], [⟨.builtin (.word .uint8), exIdent 'x'⟩]⟩ (exRef 'x')
    [⟨exDigit '1', [], some ⟨⟨false, false, ⟨.builtin (.word .uint16), .none⟩, exIdent 'a', none⟩, none⟩⟩] none
    [⟨.builtin (.word .uint8), exIdent 'f', exRef 'x'⟩]]⟩

/-- Its tokens. -/
def exFunctionChoiceTokens : List Token := List.flatten
  [[.keyword .package, .id (exIdent 'p'), .sym .semicolon, .keyword .choice, .id (exIdent 'C'), .sym .lparen], CTypeRef.tokens (.builtin (.word .uint8)),
    [.id (exIdent 'x'), .sym .rparen, .keyword .on, .id (exIdent 'x'), .sym .lbrace, .keyword .case, .literal .decimal ['1'], .sym .colon],
    CTypeRef.tokens (.builtin (.word .uint16)), [.id (exIdent 'a'), .sym .semicolon],
    CFunction.tokens ⟨.builtin (.word .uint8), exIdent 'f', exRef 'x'⟩, [.sym .rbrace, .sym .semicolon]]

theorem exFunctionChoice_text : TextOf exFunctionChoice (piecesText (spaced exFunctionChoiceTokens)) := by
  have h : PackageWritten exFunctionChoice exFunctionChoiceTokens := ⟨_, .cons (.choice _ _ _ _ _ (by decide)) .nil, by decide +kernel⟩
  have hf := spaced_fits (ts := exFunctionChoiceTokens) fun t ht => fineToken_proper ((List.all_eq_true (p := fineToken)).1 (by decide +kernel) t ht)
  refine ⟨⟨_, rfl, hf.1, hf.2.1, by rw [hf.2.2]; exact h⟩, fun d hd => ?_⟩
  simp only [exFunctionChoice, List.mem_cons, List.not_mem_nil, or_false] at hd
  subst hd
  simp [CDirective.Readable, CChoiceCases.Readable, CChoiceField.Readable, CFieldTypeId.Readable, CTypeInst.Readable, OptGrouped, CExpr.Grouped, exRef,
    exDigit]

theorem exFunctionChoice_means : List.Forall₂ (DirectiveMeans exFunctionChoice) exFunctionChoice.directives
    [some (.choice (fun vs => (((vs.getD 0 .none).asBits 8).toNat : Int)) [([1], some ⟨noExprs, 0, false, .prim (.bits 16 16), none, false⟩)] none)] := by
  have n8 : TypeDenotes ⟨.builtin (.word .uint8), .none⟩ 0 (.bits 8 8) := .unsigned (.word .uint8) 8 0 trivial rfl
  have n16 : TypeDenotes ⟨.builtin (.word .uint16), .none⟩ 0 (.bits 16 16) := .unsigned (.word .uint16) 16 0 trivial rfl
  refine .cons (.choice (k := .bits 8 8) (o := none) (i := 0) (w := ⟨false, 8⟩) (.mk rfl rfl (.builtin (.builtin n8) (by omega) nofun) (by decide)) rfl rfl
    (.cons (.mk (.cons (.const (f := fun _ => 1) (.literal (digit_means (d := 1) (.inl (by decide)) (by decide) (by decide))) (fun _ => rfl) (by decide)) .nil)
      (.yes (.mk (len := fun _ => none) (width := fun _ => none) (args := fun _ => none) rfl (.builtin n16) .no))) .nil) .no (by decide) (by decide)
    fun c hc => ?_) .nil
  obtain rfl : c = _ := by simpa using hc
  trivial

/-- **C93, violated**: the function of a choice is left out without an error; the Go type has no such method. -/
theorem C93_violated_choice : ∃ (p : CPackage) (s : List Char), TextOf p s ∧ (compileText s).isSome = true ∧
    (∃ n ps e cs d g, p.directives = [.choice ⟨n, [], ps⟩ e cs d [g]] ∧ g.name = exIdent 'f') ∧ compileFunctions s = some [[]] := by
  have hc : Closed exFunctionChoice := ⟨nofun, rfl, by decide⟩
  obtain ⟨P, q, _, e⟩ := functions_resolved exFunctionChoice_text hc exFunctionChoice_means
  refine ⟨exFunctionChoice, _, exFunctionChoice_text, ?_, ⟨_, _, _, _, _, _, rfl, rfl⟩, e⟩
  rw [C90_schema_partial exFunctionChoice_text hc ⟨_, exFunctionChoice_means, rfl⟩]
  rfl

/-- `package p; union U { uint8 x; function E f() { return 1; } }; enum uint8 E { a };` -/
def exFunctionUnion : CPackage := ⟨none, some (exIdent 'p', []), [],
  [.union ⟨exIdent 'U', [], []⟩ [⟨⟨false, false, ⟨.builtin (.word .uint8), .none⟩, exIdent 'x', none⟩, none⟩]
    [⟨exType 'E', exIdent 'f', exDigit '1'⟩], .enum ⟨.builtin (.word .uint8), .none⟩ (exIdent 'E') [⟨none, exIdent 'a', none⟩]]⟩

/-- Its tokens. -/
def exFunctionUnionTokens : List Token := List.flatten
  [[.keyword .package, .id (exIdent 'p'), .sym .semicolon, .keyword .union, .id (exIdent 'U'), .sym .lbrace], CTypeRef.tokens (.builtin (.word .uint8)),
    [.id (exIdent 'x'), .sym .semicolon], CFunction.tokens ⟨exType 'E', exIdent 'f', exDigit '1'⟩, [.sym .rbrace, .sym .semicolon, .keyword .enum],
    CTypeRef.tokens (.builtin (.word .uint8)), [.id (exIdent 'E'), .sym .lbrace, .id (exIdent 'a'), .sym .rbrace, .sym .semicolon]]

theorem exFunctionUnion_text : TextOf exFunctionUnion (piecesText (spaced exFunctionUnionTokens)) := by
  have h : PackageWritten exFunctionUnion exFunctionUnionTokens := ⟨_, .cons (.union _ _ _) (.cons (.enum _ _ _ _ (.plain _ _)) .nil), by decide +kernel⟩
  have hf := spaced_fits (ts := exFunctionUnionTokens) fun t ht => fineToken_proper ((List.all_eq_true (p := fineToken)).1 (by decide +kernel) t ht)
  refine ⟨⟨_, rfl, hf.1, hf.2.1, by rw [hf.2.2]; exact h⟩, fun d hd => ?_⟩
  simp only [exFunctionUnion, List.mem_cons, List.not_mem_nil, or_false] at hd
  rcases hd with rfl | rfl <;>
  simp [CDirective.Readable, CChoiceField.Readable, CFieldTypeId.Readable, CTypeInst.Readable, OptGrouped, CExpr.Grouped, exDigit]

theorem exFunctionUnion_means : List.Forall₂ (DirectiveMeans exFunctionUnion) exFunctionUnion.directives
    [some (.union [⟨noExprs, 0, false, .prim (.bits 8 8), none, false⟩]), some (.enum (.bits 8 8))] := by
  have n8 : TypeDenotes ⟨.builtin (.word .uint8), .none⟩ 0 (.bits 8 8) := .unsigned (.word .uint8) 8 0 trivial rfl
  exact .cons (.union (.cons (.mk (len := fun _ => none) (width := fun _ => none) (args := fun _ => none) rfl (.builtin n8) .no) .nil) (by decide)
    (fun c hc => by cases hc)) (.cons (.enum n8 rfl rfl rfl) .nil)

/-- **C93, violated**: nothing is generated for a union with a function whose return type is declared in the schema; its name is not resolved. -/
theorem C93_violated_union : ∃ (p : CPackage) (s : List Char), TextOf p s ∧ (compileText s).isSome = true ∧
    (∃ n cs e is, p.directives = [.union ⟨n, [], []⟩ cs [⟨.named e [] [], exIdent 'f', .literal .decimal ['1']⟩], .enum ⟨.builtin (.word .uint8), .none⟩ e is]) ∧
    compileFunctions s = none := by
  have hc : Closed exFunctionUnion := ⟨nofun, rfl, by decide⟩
  obtain ⟨P, q, hr, e⟩ := functions_resolved exFunctionUnion_text hc exFunctionUnion_means
  refine ⟨exFunctionUnion, _, exFunctionUnion_text, ?_, ⟨_, _, _, _, rfl⟩, ?_⟩
  · rw [C90_schema_partial exFunctionUnion_text hc ⟨_, exFunctionUnion_means, rfl⟩]
    rfl
  · rw [e]
    have hn : functionType q (visitTypeRef (exType 'E')) = none := by
      have : q.namesGoType (visitTypeRef (exType 'E')) = false := by
        rw [exType, visitTypeRef_own]
        simp only [APackage.namesGoType, ATypeRef.isBuiltin, ATypeRef.name, ATypeRef.pkg, goUserType, if_true, Bool.false_or]
        split <;> rfl
      simp only [functionType, this, Bool.false_eq_true, if_false]
    have hf : ∀ ms, namedFunction q none ms (visitFunction ⟨exType 'E', exIdent 'f', exDigit '1'⟩) = none := by
      intro ms
      simp only [namedFunction, visitFunction, functionCode, hn, Option.map_none]
    simp only [exFunctionUnion, List.map_cons, visitAll, finalDecl, functionsOf, hf, List.map_nil]
    rfl

end Verif
