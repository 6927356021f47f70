import Verif.SchemaLaws

/-!
# Laws of structs, unions, choices and enums
-/

namespace Verif

/-- The expressions of the field look only at the type parameters and the first `j` fields. -/
def Field.Local (j : Nat) (f : Field) : Prop :=
  ∀ ps as bs, as.take j = bs.take j → f.exprs ⟨ps, as⟩ = f.exprs ⟨ps, bs⟩

/-- Every field looks only at the fields before it. -/
def LocalFrom : Nat → List Field → Prop
  | _, [] => True
  | j, f :: fs => f.Local j ∧ LocalFrom (j + 1) fs

/-- Well-formed declarations: the expressions of a struct field refer to parameters and earlier fields, those of a
choice or union field to parameters; an enum or bitmask has an integer type. -/
def Decl.Wf : Decl → Prop
  | .struct fs => LocalFrom 0 fs
  | .union fs => ∀ f ∈ fs, f.Local 0
  | .choice _ cases dflt => ∀ f ∈ choiceFields cases dflt, f.Local 0
  | .enum k => k.Wf ∧ k.isDelta = true

section ok
variable (ms : Nat → Meth) (A : Acc)

/-- Field by field. -/
def OkLoop (p : Bool) (env : Env) : List Field → List Val → List Val → Prop
  | f :: fs, o :: os, v :: vs => f.Ok ms A (f.exprs env) p o v ∧ OkLoop p env fs os vs
  | [], [], [] => True
  | _, _, _ => False

/-- One field changes from `olds` to `vs`. -/
def OkAt (fs : List Field) (i : Nat) (p : Bool) (ps olds vs : List Val) : Prop :=
  ∃ f o u, fs[i]? = some f ∧ olds[i]? = some o ∧ vs = olds.set i u ∧ f.Ok ms A (f.exprs ⟨ps, olds⟩) p o u

/-- The pairs of an object `old` and a value `v` such that decoding the encoding of `v` into `old` has to give `v`. -/
def Decl.Ok (p : Bool) (d : Decl) (old v : Val) : Prop :=
  match d with
  | .struct fs => ∃ t ps olds vs, old = .obj t ps olds ∧ v = .obj t ps vs ∧ OkLoop ms A p ⟨ps, vs⟩ fs olds vs
  | .union fs => p = false ∧ ∃ t₀ t ps olds vs, old = .obj t₀ ps olds ∧ v = .obj t ps vs ∧ t ≤ maxVarsize ∧
      (if 1 ≤ t ∧ t ≤ fs.length then OkAt ms A fs (t - 1) p ps olds vs else vs = olds)
  | .choice sel cases dflt => (p = true → cases = [] → dflt = none) ∧
      ∃ t ps olds vs, old = .obj t ps olds ∧ v = .obj t ps vs ∧
      match pick (sel ps) cases dflt with
      | some i => OkAt ms A (choiceFields cases dflt) i p ps olds vs
      | none => vs = olds
  | .enum k => k.OkV v

end ok

/-! ## Structs -/

section struct
variable {ms : Nat → Meth} {A : Acc}

theorem encLoop_rt (H : Field.Laws ms A) (ps : List Val) (fs : List Field) (done olds vs : List Val)
    (hl : LocalFrom done.length fs) (hok : OkLoop ms A false ⟨ps, done ++ vs⟩ fs olds vs) :
    RoundTrip (encLoop ms ⟨ps, done ++ vs⟩ fs vs) (decLoop ms ps done fs olds) (done ++ vs) := by
  induction fs generalizing done olds vs with
  | nil =>
    cases olds <;> cases vs <;> simp only [OkLoop] at hok
    rw [List.append_nil]
    exact fun s => ⟨[], Writes.pure s, Reads.pure _ _⟩
  | cons f fs ih =>
    cases olds <;> cases vs <;> simp only [OkLoop] at hok
    rename_i o os v vs
    intro s
    obtain ⟨o1, a1, b1⟩ := Field.rt H hok.1 s
    have e : f.exprs ⟨ps, done ++ o :: os⟩ = f.exprs ⟨ps, done ++ v :: vs⟩ := hl.1 _ _ _ (by simp)
    have e2 : done ++ v :: vs = (done ++ [v]) ++ vs := by simp
    have hl2 : LocalFrom (done ++ [v]).length fs := by
      rw [List.length_append]; exact hl.2
    obtain ⟨o2, a2, b2⟩ := ih (done ++ [v]) os vs hl2 (by rw [← e2]; exact hok.2) (s ++ o1)
    rw [← e2] at a2 b2
    refine ⟨o1 ++ o2, a1.bind a2, ?_⟩
    unfold decLoop
    rw [e]
    rw [List.length_append] at b2
    exact b1.bind b2

theorem struct_rt (H : Field.Laws ms A) (fs : List Field) (hw : (Decl.struct fs).Wf) :
    (structMeth ms fs).RT ((Decl.struct fs).Ok ms A false) := by
  rintro _ _ ⟨t, ps, olds, vs, rfl, rfl, hok⟩ s
  obtain ⟨out, a, b⟩ := encLoop_rt H ps fs [] olds vs hw hok s
  exact ⟨out, a, Reads.map (f := fun vs => Val.obj t ps vs) b⟩

/-! ### Packed -/

/-- What one object passes to the contexts of its fields. -/
abbrev Row := Nat → Option (Exprs × Val)

/-- Invariants for all fields. -/
structure FInv (ms : Nat → Meth) (A : Acc) (FI : Field → Ctx → List (Exprs × Val) → Prop)
    (FR : Field → Ctx → Ctx → List (Exprs × Val) → Prop) : Prop where
  start : ∀ f c0, f.create ms = .ok c0 → FI f c0 [] ∧ (∀ c es, FI f c es → FR f c c0 es) ∧ ∀ es, FR f c0 c0 es
  init : ∀ f c es x old v, FI f c es → f.Ok ms A x true old v →
    ∃ c', f.init ms x v c = (.ok (), c') ∧ FI f c' (es ++ [(x, v)])
  step : ∀ f cw cr x old v es, f.Ok ms A x true old v → FR f cw cr ((x, v) :: es) → ∀ s, ∃ out cw' cr',
      WM.run (f.encodeP ms x v cw) s = ((.ok (), cw'), s ++ out) ∧
      Reads (f.decodeP ms x old cr) out s.length (v, cr') ∧ FR f cw' cr' es

theorem fInv_exists (H : Field.Laws ms A) : ∃ FI FR, FInv ms A FI FR := by
  have h : ∀ f : Field, f.Packs ms A := Field.packs H
  unfold Field.Packs at h
  choose FI FR h using h
  exact ⟨FI, FR, fun f => (h f).1, fun f => (h f).2.1, fun f => (h f).2.2⟩

/-- The contexts of the fields `fs` after initialisation with `rows`. -/
def KI (FI : Field → Ctx → List (Exprs × Val) → Prop) (fs : List Field) (kids : List Ctx) (rows : List Row) : Prop :=
  ∀ i f, fs[i]? = some f → ∃ k, kids[i]? = some k ∧ FI f k (rows.filterMap (· i))

/-- The contexts of the fields `fs` of writer and reader are in step. -/
def KR (FR : Field → Ctx → Ctx → List (Exprs × Val) → Prop) (fs : List Field) (kw kr : List Ctx) (rows : List Row) : Prop :=
  ∀ i f, fs[i]? = some f → ∃ cw cr, kw[i]? = some cw ∧ kr[i]? = some cr ∧ FR f cw cr (rows.filterMap (· i))

def Row.tail (r : Row) : Row := fun i => r (i + 1)

theorem filterMap_tail (rows : List Row) (i : Nat) : (rows.map Row.tail).filterMap (· i) = rows.filterMap (· (i + 1)) := by
  rw [List.filterMap_map]; rfl

theorem KI_cons {FI : Field → Ctx → List (Exprs × Val) → Prop} {f : Field} {fs : List Field} {kids : List Ctx}
    {rows : List Row} : KI FI (f :: fs) kids rows ↔
      ∃ k ks, kids = k :: ks ∧ FI f k (rows.filterMap (· 0)) ∧ KI FI fs ks (rows.map Row.tail) := by
  constructor
  · intro h
    obtain ⟨k, hk, h0⟩ := h 0 f rfl
    cases kids with
    | nil => simp at hk
    | cons k' ks =>
      simp only [List.getElem?_cons_zero, Option.some.injEq] at hk
      subst hk
      refine ⟨k', ks, rfl, h0, fun i g hg => ?_⟩
      rw [filterMap_tail]
      exact h (i + 1) g (by simpa using hg)
  · rintro ⟨k, ks, rfl, h0, h1⟩ i g hg
    cases i with
    | zero => simp only [List.getElem?_cons_zero, Option.some.injEq] at hg; subst hg; exact ⟨k, rfl, h0⟩
    | succ i =>
      have := h1 i g (by simpa using hg)
      rw [filterMap_tail] at this
      simpa using this

theorem KR_cons {FR : Field → Ctx → Ctx → List (Exprs × Val) → Prop} {f : Field} {fs : List Field} {kw kr : List Ctx}
    {rows : List Row} : KR FR (f :: fs) kw kr rows ↔
      ∃ c cs d ds, kw = c :: cs ∧ kr = d :: ds ∧ FR f c d (rows.filterMap (· 0)) ∧ KR FR fs cs ds (rows.map Row.tail) := by
  constructor
  · intro h
    obtain ⟨c, d, hc, hd, h0⟩ := h 0 f rfl
    cases kw with
    | nil => simp at hc
    | cons c' cs =>
      cases kr with
      | nil => simp at hd
      | cons d' ds =>
        simp only [List.getElem?_cons_zero, Option.some.injEq] at hc hd
        subst hc; subst hd
        refine ⟨c', cs, d', ds, rfl, rfl, h0, fun i g hg => ?_⟩
        rw [filterMap_tail]
        exact h (i + 1) g (by simpa using hg)
  · rintro ⟨c, cs, d, ds, rfl, rfl, h0, h1⟩ i g hg
    cases i with
    | zero => simp only [List.getElem?_cons_zero, Option.some.injEq] at hg; subst hg; exact ⟨c, d, rfl, rfl, h0⟩
    | succ i =>
      have := h1 i g (by simpa using hg)
      rw [filterMap_tail] at this
      simpa using this

theorem createLoop_get {fs : List Field} {ks : List Ctx} (h : createLoop ms fs = .ok ks) :
    ks.length = fs.length ∧ ∀ (i : Nat) (f : Field), fs[i]? = some f → ∃ k, ks[i]? = some k ∧ f.create ms = .ok k := by
  induction fs generalizing ks with
  | nil =>
    injection h with h
    subst h
    exact ⟨rfl, by simp⟩
  | cons f fs ih =>
    unfold createLoop at h
    cases hc : f.create ms with
    | error e => rw [hc] at h; cases h
    | ok c =>
      cases hr : createLoop ms fs with
      | error e => rw [hc, hr] at h; cases h
      | ok cs =>
        rw [hc, hr] at h
        injection h with h
        subst h
        obtain ⟨h1, h2⟩ := ih hr
        refine ⟨by simp [h1], fun i g hg => ?_⟩
        cases i with
        | zero => simp only [List.getElem?_cons_zero, Option.some.injEq] at hg; subst hg; exact ⟨c, rfl, hc⟩
        | succ i => simpa using h2 i g (by simpa using hg)

theorem struct_create {fs : List Field} {c0 : Ctx} (h : (structMeth ms fs).create Ctx.empty = .ok c0) :
    ∃ ks, c0 = .node none ks ∧ createLoop ms fs = .ok ks := by
  change (do let cs ← createLoop ms fs; pure (Ctx.node none ([] ++ cs))) = Except.ok c0 at h
  cases hr : createLoop ms fs with
  | error e => rw [hr] at h; cases h
  | ok cs =>
    rw [hr] at h
    injection h with h
    exact ⟨cs, h.symm, rfl⟩

/-- The row of a struct value. -/
def rowFrom (env : Env) (fs : List Field) (vs : List Val) : Row := fun i =>
  match fs[i]?, vs[i]? with
  | some f, some v => some (f.exprs env, v)
  | _, _ => none

theorem rowFrom_zero (env : Env) (f : Field) (fs : List Field) (v : Val) (vs : List Val) :
    rowFrom env (f :: fs) (v :: vs) 0 = some (f.exprs env, v) := rfl

theorem rowFrom_tail (env : Env) (f : Field) (fs : List Field) (v : Val) (vs : List Val) :
    Row.tail (rowFrom env (f :: fs) (v :: vs)) = rowFrom env fs vs := by
  funext i
  simp [Row.tail, rowFrom]

variable {FI : Field → Ctx → List (Exprs × Val) → Prop} {FR : Field → Ctx → Ctx → List (Exprs × Val) → Prop}

theorem initLoop_ok (hF : FInv ms A FI FR) (env : Env) (fs : List Field) (olds vs : List Val) (kids : List Ctx)
    (rows : List Row) (hok : OkLoop ms A true env fs olds vs) (hI : KI FI fs kids rows) :
    ∃ kids', initLoop ms env fs vs kids = (.ok (), kids') ∧ KI FI fs kids' (rows ++ [rowFrom env fs vs]) := by
  induction fs generalizing olds vs kids rows with
  | nil =>
    cases olds <;> cases vs <;> simp only [OkLoop] at hok
    exact ⟨kids, rfl, fun i f h => by simp at h⟩
  | cons f fs ih =>
    cases olds <;> cases vs <;> simp only [OkLoop] at hok
    rename_i o os v vs
    obtain ⟨k, ks, rfl, h0, h1⟩ := KI_cons.mp hI
    obtain ⟨k', a, b⟩ := hF.init f k _ _ o v h0 hok.1
    obtain ⟨ks', a2, b2⟩ := ih os vs ks _ hok.2 h1
    refine ⟨k' :: ks', ?_, KI_cons.mpr ⟨k', ks', rfl, ?_, ?_⟩⟩
    · unfold initLoop
      rw [a]
      dsimp only
      rw [a2]
    · rw [List.filterMap_append]
      simpa [rowFrom_zero] using b
    · rw [List.map_append, List.map_cons, rowFrom_tail]
      exact b2

theorem encLoopP_rt (hF : FInv ms A FI FR) (ps : List Val) (fs : List Field) (done olds vs : List Val) (kw kr : List Ctx)
    (rows : List Row) (hl : LocalFrom done.length fs) (hok : OkLoop ms A true ⟨ps, done ++ vs⟩ fs olds vs)
    (hR : KR FR fs kw kr (rowFrom ⟨ps, done ++ vs⟩ fs vs :: rows)) (s : List Bool) :
    ∃ out kw' kr', WM.run (encLoopP ms ⟨ps, done ++ vs⟩ fs vs kw) s = ((.ok (), kw'), s ++ out) ∧
      Reads (decLoopP ms ps done fs olds kr) out s.length (done ++ vs, kr') ∧ KR FR fs kw' kr' rows := by
  induction fs generalizing done olds vs kw kr rows s with
  | nil =>
    cases olds <;> cases vs <;> simp only [OkLoop] at hok
    refine ⟨[], kw, kr, by simp [encLoopP, WM.run_pure], ?_, fun i f h => by simp at h⟩
    rw [List.append_nil]
    cases kr <;> exact Reads.pure _ _
  | cons f fs ih =>
    cases olds <;> cases vs <;> simp only [OkLoop] at hok
    rename_i o os v vs
    obtain ⟨c, cs, d, ds, rfl, rfl, h0, h1⟩ := KR_cons.mp hR
    rw [List.filterMap_cons, rowFrom_zero] at h0
    rw [List.map_cons, rowFrom_tail] at h1
    obtain ⟨o1, c', d', a1, b1, r1⟩ := hF.step f c d _ o v _ hok.1 h0 s
    have e : f.exprs ⟨ps, done ++ o :: os⟩ = f.exprs ⟨ps, done ++ v :: vs⟩ := hl.1 _ _ _ (by simp)
    have e2 : done ++ v :: vs = (done ++ [v]) ++ vs := by simp
    have hl2 : LocalFrom (done ++ [v]).length fs := by
      rw [List.length_append]; exact hl.2
    obtain ⟨o2, cs', ds', a2, b2, r2⟩ := ih (done ++ [v]) os vs cs ds _ hl2 (by rw [← e2]; exact hok.2)
      (by rw [← e2]; exact h1) (s ++ o1)
    rw [← e2] at a2 b2
    refine ⟨o1 ++ o2, c' :: cs', d' :: ds', ?_, ?_, KR_cons.mpr ⟨c', cs', d', ds', rfl, rfl, r1, r2⟩⟩
    · unfold encLoopP
      rw [WM.run_bind, a1]
      dsimp only
      rw [WM.run_bind, a2]
      rw [List.append_assoc]
      rfl
    · unfold decLoopP
      rw [e]
      rw [List.length_append] at b2
      refine b1.bind ?_
      exact Reads.map (f := fun r : List Val × List Ctx => (r.1, d' :: r.2)) b2

/-- The row of an object of the struct. -/
def structRow (fs : List Field) : Val → Row
  | .obj _ ps vs => rowFrom ⟨ps, vs⟩ fs vs
  | _ => fun _ => none

theorem struct_packs (H : Field.Laws ms A) (fs : List Field) (hw : (Decl.struct fs).Wf) :
    (structMeth ms fs).Packs ((Decl.struct fs).Ok ms A true) := by
  obtain ⟨FI, FR, hF⟩ := fInv_exists H
  refine ⟨fun c vs => ∃ d kids, c = .node d kids ∧ KI FI fs kids (vs.map (structRow fs)),
    fun cw cr vs => ∃ dw kw dr kr, cw = .node dw kw ∧ cr = .node dr kr ∧ KR FR fs kw kr (vs.map (structRow fs)), ?_, ?_, ?_⟩
  · intro c0 hc
    obtain ⟨ks, rfl, hk⟩ := struct_create hc
    obtain ⟨_, hget⟩ := createLoop_get hk
    refine ⟨⟨none, ks, rfl, fun i f hf => ?_⟩, ?_, fun vs => ⟨_, _, _, _, rfl, rfl, fun i f hf => ?_⟩⟩
    · obtain ⟨k, h1, h2⟩ := hget i f hf
      exact ⟨k, h1, (hF.start f k h2).1⟩
    · rintro c vs ⟨d, kids, rfl, h⟩
      refine ⟨_, _, _, _, rfl, rfl, fun i f hf => ?_⟩
      obtain ⟨k, h1, h2⟩ := hget i f hf
      obtain ⟨k', h3, h4⟩ := h i f hf
      exact ⟨k', k, h3, h1, (hF.start f k h2).2.1 _ _ h4⟩
    · obtain ⟨k, h1, h2⟩ := hget i f hf
      exact ⟨k, k, h1, h1, (hF.start f k h2).2.2 _⟩
  · rintro c us old v ⟨d, kids, rfl, hI⟩ ⟨t, ps, olds, vs, rfl, rfl, hok⟩
    obtain ⟨kids', a, b⟩ := initLoop_ok hF _ fs olds vs kids _ hok hI
    refine ⟨.node d kids', ?_, d, kids', rfl, ?_⟩
    · show (let r := initLoop ms ⟨ps, vs⟩ fs vs kids; (r.1, Ctx.node d r.2)) = _
      rw [a]
    · rw [List.map_append]; exact b
  · rintro cw cr old v us ⟨t, ps, olds, vs, rfl, rfl, hok⟩ ⟨dw, kw, dr, kr, rfl, rfl, hR⟩ s
    obtain ⟨out, kw', kr', a, b, hR'⟩ := encLoopP_rt hF ps fs [] olds vs kw kr _ hw hok hR s
    refine ⟨out, .node dw kw', .node dr kr', ?_, ?_, ⟨dw, kw', dr, kr', rfl, rfl, hR'⟩⟩
    · show WM.run (WM.bind _ _) _ = _
      rw [WM.run_bind]
      change WM.run (encLoopP ms ⟨ps, vs⟩ fs vs kw) s = _ at a
      rw [a]
      rfl
    · exact Reads.map (f := fun r : List Val × List Ctx => (Val.obj t ps r.1, Ctx.node dr r.2)) b

/-! ## Unions -/

theorem at_rt (H : Field.Laws ms A) (fs : List Field) (hl : ∀ f ∈ fs, f.Local 0) (i : Nat) (ps olds vs : List Val)
    (h : OkAt ms A fs i false ps olds vs) : RoundTrip (encAt ms fs i ps vs) (decAt ms fs i ps olds) vs := by
  obtain ⟨f, o, u, hf, ho, rfl, hok⟩ := h
  have hi : i < olds.length := by
    by_contra hc
    rw [List.getElem?_eq_none (by omega)] at ho
    simp at ho
  intro s
  obtain ⟨out, a, b⟩ := Field.rt H hok s
  refine ⟨out, ?_, ?_⟩
  · unfold encAt
    rw [hf, List.getElem?_set_self hi]
    dsimp only
    rw [hl f (List.mem_of_getElem? hf) ps (olds.set i u) olds (by simp)]
    exact a
  · unfold decAt
    rw [hf, ho]
    exact Reads.map (f := fun v => olds.set i v) b

theorem union_rt (H : Field.Laws ms A) (fs : List Field) (hw : (Decl.union fs).Wf) :
    (unionMeth ms fs).RT ((Decl.union fs).Ok ms A false) := by
  rintro _ _ ⟨_, t₀, t, ps, olds, vs, rfl, rfl, ht, hok⟩ s
  have e : (BitVec.ofNat 64 t).toNat = t := ofNat64_toNat (by unfold maxVarsize at ht; omega)
  obtain ⟨o1, _, a1, b1⟩ := varsize_rt (BitVec.ofNat 64 t) (by rw [e]; exact ht) s
  by_cases hc : 1 ≤ t ∧ t ≤ fs.length
  · rw [if_pos hc] at hok
    obtain ⟨o2, a2, b2⟩ := at_rt H fs hw _ _ _ _ hok (s ++ o1)
    refine ⟨o1 ++ o2, a1.bind ?_, b1.bind ?_⟩
    · rw [if_pos hc]; exact a2
    · dsimp only
      rw [e, if_pos hc]
      rw [List.length_append] at b2
      exact Reads.map (f := fun vs => Val.obj t ps vs) b2
  · rw [if_neg hc] at hok
    subst hok
    refine ⟨o1 ++ [], a1.bind ?_, b1.bind ?_⟩
    · rw [if_neg hc]; exact Writes.pure _
    · dsimp only
      rw [e, if_neg hc]
      exact Reads.pure _ _

theorem union_packs (fs : List Field) : (unionMeth ms fs).Packs ((Decl.union fs).Ok ms A true) := by
  refine ⟨fun _ _ => True, fun _ _ _ => True, fun _ _ => ⟨trivial, fun _ _ _ => trivial, fun _ => trivial⟩, ?_, ?_⟩
  · rintro _ _ _ _ _ ⟨h, _⟩; cases h
  · rintro _ _ _ _ _ ⟨h, _⟩; cases h

/-! ## Choices -/

theorem choice_rt (H : Field.Laws ms A) (sel : List Val → Int) (cases : List (List Int × Option Field))
    (dflt : Option Field) (hw : (Decl.choice sel cases dflt).Wf) :
    (choiceMeth ms sel cases dflt).RT ((Decl.choice sel cases dflt).Ok ms A false) := by
  rintro _ _ ⟨_, t, ps, olds, vs, rfl, rfl, hok⟩ s
  unfold choiceMeth
  dsimp only
  cases hp : pick (sel ps) cases dflt with
  | none =>
    rw [hp] at hok
    dsimp only at hok ⊢
    subst hok
    exact ⟨[], Writes.pure s, Reads.pure _ _⟩
  | some i =>
    rw [hp] at hok
    obtain ⟨out, a, b⟩ := at_rt H _ hw _ _ _ _ hok s
    exact ⟨out, a, Reads.map (f := fun vs => Val.obj t ps vs) b⟩

/-- The row of a choice: only the selected field. -/
def choiceRow (sel : List Val → Int) (cases : List (List Int × Option Field)) (dflt : Option Field) : Val → Row
  | .obj _ ps vs => fun i =>
    match (choiceFields cases dflt)[i]?, vs[i]? with
    | some f, some v => if pick (sel ps) cases dflt = some i then some (f.exprs ⟨ps, vs⟩, v) else none
    | _, _ => none
  | _ => fun _ => none

theorem choiceRow_none {sel : List Val → Int} {cases : List (List Int × Option Field)} {dflt : Option Field} {t : Nat}
    {ps vs : List Val} {j : Nat} (h : pick (sel ps) cases dflt ≠ some j) :
    choiceRow sel cases dflt (.obj t ps vs) j = none := by
  simp only [choiceRow]
  split
  · rw [if_neg h]
  · rfl

theorem pickCase_lt {x : Int} {cases : List (List Int × Option Field)} {j i : Nat} (h : pickCase x cases j = some i) :
    j ≤ i ∧ i < j + (cases.filterMap (·.2)).length := by
  induction cases generalizing j with
  | nil => simp [pickCase] at h
  | cons c cs ih =>
    obtain ⟨ls, fo⟩ := c
    cases fo with
    | none => have := ih h; simpa using this
    | some f =>
      unfold pickCase at h
      split at h
      · injection h with h
        subst h
        simp
      · have := ih h
        rw [List.filterMap_cons]
        dsimp only
        rw [List.length_cons]
        omega

theorem choice_packs (H : Field.Laws ms A) (sel : List Val → Int) (cases : List (List Int × Option Field))
    (dflt : Option Field) (hw : (Decl.choice sel cases dflt).Wf) :
    (choiceMeth ms sel cases dflt).Packs ((Decl.choice sel cases dflt).Ok ms A true) := by
  obtain ⟨FI, FR, hF⟩ := fInv_exists H
  let fs := choiceFields cases dflt
  let row := choiceRow sel cases dflt
  let nc := (cases.filterMap (·.2)).length
  refine ⟨fun c vs => ∃ d kids, c = .node d kids ∧ ∀ i f, fs[i]? = some f → ∃ k, kids[i]? = some k ∧
      (if i < nc then FI f k ((vs.map row).filterMap (· i)) else f.create ms = .ok k),
    fun cw cr vs => ∃ dw kw dr kr, cw = .node dw kw ∧ cr = .node dr kr ∧ KR FR fs kw kr (vs.map row), ?_, ?_, ?_⟩
  · intro c0 hc
    obtain ⟨ks, rfl, hk⟩ := struct_create hc
    obtain ⟨_, hget⟩ := createLoop_get hk
    refine ⟨⟨none, ks, rfl, fun i f hf => ?_⟩, ?_, fun vs => ⟨_, _, _, _, rfl, rfl, fun i f hf => ?_⟩⟩
    · obtain ⟨k, h1, h2⟩ := hget i f hf
      refine ⟨k, h1, ?_⟩
      split
      · exact (hF.start f k h2).1
      · exact h2
    · rintro c vs ⟨d, kids, rfl, h⟩
      refine ⟨_, _, _, _, rfl, rfl, fun i f hf => ?_⟩
      obtain ⟨k, h1, h2⟩ := hget i f hf
      obtain ⟨k', h3, h4⟩ := h i f hf
      refine ⟨k', k, h3, h1, ?_⟩
      split at h4
      · exact (hF.start f k h2).2.1 _ _ h4
      · rw [h2] at h4
        injection h4 with h4
        subst h4
        exact (hF.start f k h2).2.2 _
    · obtain ⟨k, h1, h2⟩ := hget i f hf
      exact ⟨k, k, h1, h1, (hF.start f k h2).2.2 _⟩
  · rintro c us old v ⟨d, kids, rfl, hI⟩ ⟨hne, t, ps, olds, vs, rfl, rfl, hok⟩
    unfold choiceMeth
    dsimp only
    by_cases hem : cases.isEmpty = true
    · have hem' : cases = [] := by simpa using hem
      have hd := hne rfl hem'
      subst hem'
      subst hd
      exact ⟨_, rfl, d, kids, rfl, fun i f hf => by simp [fs, choiceFields] at hf⟩
    · rw [if_neg hem]
      cases hpc : pickCase (sel ps) cases 0 with
      | some i =>
        have hp : pick (sel ps) cases dflt = some i := by unfold pick; rw [hpc]
        rw [hp] at hok
        obtain ⟨f, o, u, hf, ho, rfl, hok⟩ := hok
        have hlen : i < olds.length := by
          by_contra hc
          rw [List.getElem?_eq_none (by omega)] at ho
          simp at ho
        obtain ⟨k, hk, hI'⟩ := hI i f hf
        have hin : i < nc := by have := pickCase_lt hpc; simpa [nc] using this.2
        rw [if_pos hin] at hI'
        rw [← hw f (List.mem_of_getElem? hf) ps (olds.set i u) olds (by simp)] at hok
        obtain ⟨k', a, b⟩ := hF.init f k _ _ o u hI' hok
        dsimp only
        rw [hf, List.getElem?_set_self hlen, hk]
        dsimp only
        rw [a]
        refine ⟨_, rfl, d, _, rfl, fun j g hg => ?_⟩
        have hkl : i < kids.length := by
          by_contra hc
          rw [List.getElem?_eq_none (by omega)] at hk
          simp at hk
        by_cases hj : i = j
        · subst hj
          rw [hf] at hg
          injection hg with hg
          subst hg
          refine ⟨k', List.getElem?_set_self hkl, ?_⟩
          rw [if_pos hin, List.map_append, List.filterMap_append]
          have : row (.obj t ps (olds.set i u)) i = some (f.exprs ⟨ps, olds.set i u⟩, u) := by
            simp only [row, choiceRow]
            rw [hf, List.getElem?_set_self hlen]
            simp [hp]
          simpa [this] using b
        · obtain ⟨k2, h1, h2⟩ := hI j g hg
          refine ⟨k2, by rw [List.getElem?_set_ne hj]; exact h1, ?_⟩
          have : row (.obj t ps (olds.set i u)) j = none := by exact choiceRow_none (by rw [hp]; simpa using hj)
          rw [List.map_append, List.filterMap_append]
          simpa [this] using h2
      | none =>
        dsimp only
        cases hd : dflt with
        | none =>
          refine ⟨_, rfl, d, kids, rfl, fun j g hg => ?_⟩
          obtain ⟨k2, h1, h2⟩ := hI j g hg
          refine ⟨k2, h1, ?_⟩
          have hp : pick (sel ps) cases dflt = none := by unfold pick; rw [hpc, hd]; rfl
          have : row (.obj t ps vs) j = none := by exact choiceRow_none (by rw [hp]; simp)
          rw [List.map_append, List.filterMap_append]
          simpa [this] using h2
        | some fd =>
          have hp : pick (sel ps) cases dflt = some nc := by unfold pick; rw [hpc, hd]; rfl
          have hfd : fs[nc]? = some fd := by simp [fs, choiceFields, nc, hd]
          obtain ⟨k, hk, hc⟩ := hI nc fd hfd
          rw [if_neg (by omega)] at hc
          dsimp only
          rw [hc]
          refine ⟨_, rfl, d, _, rfl, fun j g hg => ?_⟩
          obtain ⟨k2, h1, h2⟩ := hI j g hg
          have hkl : j < kids.length := by
            by_contra hc
            rw [List.getElem?_eq_none (by omega)] at h1
            simp at h1
          refine ⟨k2, by rw [List.getElem?_append_left hkl]; exact h1, ?_⟩
          by_cases hj : j < nc
          · rw [if_pos hj] at h2 ⊢
            have : row (.obj t ps vs) j = none := by exact choiceRow_none (by rw [hp]; simp; omega)
            rw [List.map_append, List.filterMap_append]
            simpa [this] using h2
          · rw [if_neg hj] at h2 ⊢
            exact h2
  · rintro cw cr old v us ⟨hne, t, ps, olds, vs, rfl, rfl, hok⟩ ⟨dw, kw, dr, kr, rfl, rfl, hR⟩ s
    unfold choiceMeth
    dsimp only
    by_cases hem : cases.isEmpty = true
    · have hem' : cases = [] := by simpa using hem
      have hd := hne rfl hem'
      subst hem'
      subst hd
      have : vs = olds := hok
      subst this
      exact ⟨[], .node dw kw, .node dr kr, by simp [WM.run_pure], Reads.pure _ _, dw, kw, dr, kr, rfl, rfl,
        fun i f hf => by simp [fs, choiceFields] at hf⟩
    · rw [if_neg hem, if_neg hem]
      cases hp : pick (sel ps) cases dflt with
      | none =>
        rw [hp] at hok
        dsimp only at hok ⊢
        subst hok
        refine ⟨[], .node dw kw, .node dr kr, by simp [WM.run_pure], Reads.pure _ _, dw, kw, dr, kr, rfl, rfl,
          fun i f hf => ?_⟩
        have := hR i f hf
        have hn : row (.obj t ps vs) i = none := by exact choiceRow_none (by rw [hp]; simp)
        rw [List.map_cons, List.filterMap_cons, hn] at this
        exact this
      | some i =>
        rw [hp] at hok
        obtain ⟨f, o, u, hf, ho, rfl, hok⟩ := hok
        have hlen : i < olds.length := by
          by_contra hc
          rw [List.getElem?_eq_none (by omega)] at ho
          simp at ho
        have hex := hw f (List.mem_of_getElem? hf) ps (olds.set i u) olds (by simp)
        rw [← hex] at hok
        obtain ⟨k, kr', hk, hkr, hR0⟩ := hR i f hf
        have hrow : row (.obj t ps (olds.set i u)) i = some (f.exprs ⟨ps, olds.set i u⟩, u) := by
          simp only [row, choiceRow]
          rw [hf, List.getElem?_set_self hlen]
          simp [hp]
        rw [List.map_cons, List.filterMap_cons, hrow] at hR0
        obtain ⟨out, c', d', a, b, hR'⟩ := hF.step f k kr' _ o u _ hok hR0 s
        refine ⟨out, .node dw (kw.set i c'), .node dr (kr.set i d'), ?_, ?_, dw, _, dr, _, rfl, rfl, fun j g hg => ?_⟩
        · dsimp only
          rw [hf, List.getElem?_set_self hlen, hk]
          dsimp only
          rw [WM.run_bind, a]
          rfl
        · dsimp only
          rw [hf, ho, hkr]
          dsimp only
          rw [← hex]
          exact Reads.map (f := fun r : Val × Ctx => (Val.obj t ps (olds.set i r.1), Ctx.node dr (kr.set i r.2))) b
        · have hkl : i < kw.length := by
            by_contra hc
            rw [List.getElem?_eq_none (by omega)] at hk
            simp at hk
          have hkl' : i < kr.length := by
            by_contra hc
            rw [List.getElem?_eq_none (by omega)] at hkr
            simp at hkr
          by_cases hj : i = j
          · subst hj
            rw [hf] at hg
            injection hg with hg
            subst hg
            exact ⟨c', d', List.getElem?_set_self hkl, List.getElem?_set_self hkl', hR'⟩
          · obtain ⟨c2, d2, h1, h2, h3⟩ := hR j g hg
            refine ⟨c2, d2, by rw [List.getElem?_set_ne hj]; exact h1, by rw [List.getElem?_set_ne hj]; exact h2, ?_⟩
            have hn : row (.obj t ps (olds.set i u)) j = none := by exact choiceRow_none (by rw [hp]; simpa using hj)
            rw [List.map_cons, List.filterMap_cons, hn] at h3
            exact h3

/-! ## Enums and bitmasks -/

theorem enum_rt (k : Elem) (hw : k.Wf) : (enumMeth k).RT ((Decl.enum k).Ok ms A false) :=
  fun _ v h => Elem.scalarV_rt k hw v h

theorem enum_packs (k : Elem) (hw : k.Wf) (hd : k.isDelta = true) :
    (enumMeth k).Packs ((Decl.enum k).Ok ms A true) := by
  let img : Val → Nat × BitVec 64 := fun v => (k.vt.bitSizeOf v, k.vt.asU64 v)
  refine ⟨fun c vs => ∃ kids, c = .node (some (DCtx.initAll Field.rawT (vs.map img))) kids,
    fun cw cr vs => ∃ dw kw dr kr, cw = .node (some dw) kw ∧ cr = .node (some dr) kr ∧
      SyncU dw dr (vs.map fun v => (img v).2), ?_, ?_, ?_⟩
  · intro c0 hc
    injection hc with hc
    subst hc
    refine ⟨⟨[], rfl⟩, ?_, fun es => ⟨_, _, _, _, rfl, rfl, Field.sync_new _⟩⟩
    rintro c vs ⟨kids, rfl⟩
    refine ⟨_, _, _, _, rfl, rfl, ?_⟩
    have := Field.sync_raw (vs.map img)
    rwa [List.map_map] at this
  · rintro c vs old v ⟨kids, rfl⟩ _
    refine ⟨_, rfl, kids, ?_⟩
    rw [Field.init_raw, List.map_append]
    unfold DCtx.initAll
    rw [List.foldl_append]
    rfl
  · rintro cw cr old v vs hok ⟨dw, kw, dr, kr, rfl, rfl, hS⟩ s
    obtain ⟨out, dw', dr', a, b, c⟩ := Field.delta_step hw (Elem.isDelta_intLike hd) hok kw kr hS s
    exact ⟨out, _, _, a, b, dw', kw, dr', kr, rfl, rfl, c⟩

end struct

/-! ## Schemas -/

/-- The pairs of an old object and a value that types of a schema transmit, with at most `n` nested method calls. -/
def Accepts (schema : Nat → Decl) : Nat → Acc
  | 0, _, _, _, _ => False
  | n + 1, p, name, old, v => (schema name).Ok (methods schema n) (Accepts schema n) p old v

theorem schema_laws (schema : Nat → Decl) (hw : ∀ name, (schema name).Wf) (n : Nat) :
    Field.Laws (methods schema n) (Accepts schema n) := by
  induction n with
  | zero =>
    intro name
    refine ⟨fun _ _ h => h.elim, fun _ _ => True, fun _ _ _ => True,
      fun _ _ => ⟨trivial, fun _ _ _ => trivial, fun _ => trivial⟩, fun _ _ _ _ _ h => h.elim, fun _ _ _ _ _ h => h.elim⟩
  | succ n ih =>
    intro name
    have h := hw name
    show ((schema name).meth (methods schema n)).RT ((schema name).Ok _ _ false) ∧
      ((schema name).meth (methods schema n)).Packs ((schema name).Ok _ _ true)
    cases hd : schema name with
    | struct fs => rw [hd] at h; exact ⟨struct_rt ih fs h, struct_packs ih fs h⟩
    | union fs => rw [hd] at h; exact ⟨union_rt ih fs h, union_packs fs⟩
    | choice sel cases dflt =>
      rw [hd] at h; exact ⟨choice_rt ih sel cases dflt h, choice_packs ih sel cases dflt h⟩
    | enum k => rw [hd] at h; exact ⟨enum_rt k h.1, enum_packs k h.1 h.2⟩

end Verif
