import Verif.WireTotal
import Verif.SchemaAccept

/-!
# Which objects have an encoding

Every value that C25 round-trips has an encoding in the wire format, for schemas without unions (a union with an unknown
tag is accepted by the code, but has no encoding).
-/

namespace Verif.Wire

/-- A decision about every sequence. -/
def Decide.Total (dec : Decide) : Prop := ∀ os, ∃ plan, dec os = some plan

theorem goDec_total : goDec.Total := fun os => ⟨goPlan os, rfl⟩

theorem standard_total : standard.Total := fun os => ⟨standardPlan os, rfl⟩

/-- A piece with an encoding at every position. -/
def PieceDef : Piece → Prop
  | .leaf _ o => ∃ b, scalar o.k o.v = some b
  | .raw f => ∀ pos, ∃ b, f pos = some b

abbrev PiecesDef (ps : List Piece) : Prop := ∀ p ∈ ps, PieceDef p

theorem chunk_def {dec : Decide} (hd : dec.Total) {os : List Occ} {j : Nat} {o : Occ} (ho : os[j]? = some o)
    (hb : ∃ b, scalar o.k o.v = some b) : ∃ out, chunk dec os j = some out := by
  obtain ⟨b, hb⟩ := hb
  obtain ⟨plan, hp⟩ := hd os
  unfold chunk
  simp only [ho, hb, hp, Option.bind_eq_bind, Option.bind_some]
  cases j with
  | zero => cases plan <;> exact ⟨_, rfl⟩
  | succ j =>
    cases plan with
    | none => exact ⟨_, rfl⟩
    | some d =>
      have hlt : j + 1 < os.length := (List.getElem?_eq_some_iff.mp ho).1
      obtain ⟨p, hp⟩ : ∃ p, os[j]? = some p := ⟨os[j], List.getElem?_eq_getElem (by omega)⟩
      simp only [hp, Option.bind_some]
      exact ⟨_, rfl⟩

theorem lay_def {dec : Decide} (hd : dec.Total) {all : List Nat → List Occ} : ∀ {ps : List Piece} {seen : List Nat → Nat} {pos : Nat},
    PiecesDef ps → (∀ p, (all p).drop (seen p) = occs p ps) → ∃ out, lay dec all seen ps pos = some out
  | [], _, _, _, _ => ⟨[], rfl⟩
  | .leaf q o :: ps, seen, pos, h, hs => by
    have ho : (all q)[seen q]? = some o := by
      have : ((all q).drop (seen q))[0]? = some o := by rw [hs q]; simp [occs]
      simpa using this
    obtain ⟨a, ha⟩ := chunk_def hd ho (h (.leaf q o) (by simp))
    obtain ⟨b, hb⟩ := lay_def hd (all := all) (ps := ps) (seen := fun p => if p = q then seen p + 1 else seen p) (pos := pos + a.length)
      (fun p hp => h p (by simp [hp])) (by
        intro p
        have := hs p
        by_cases hpq : p = q
        · subst hpq
          rw [if_pos rfl, ← List.drop_drop, this]
          simp [occs]
        · rw [if_neg hpq, this]
          simp only [occs]
          rw [if_neg fun e => hpq e.symm])
    exact ⟨a ++ b, by simp only [lay, ha, hb, Option.bind_eq_bind, Option.bind_some]⟩
  | .raw f :: ps, seen, pos, h, hs => by
    obtain ⟨a, ha⟩ := h (.raw f) (by simp) pos
    obtain ⟨b, hb⟩ := lay_def hd (all := all) (ps := ps) (seen := seen) (pos := pos + a.length) (fun p hp => h p (by simp [hp]))
      (fun p => by rw [hs p]; simp only [occs])
    exact ⟨a ++ b, by simp only [lay, ha, hb, Option.bind_eq_bind, Option.bind_some]⟩

theorem layAll_def {dec : Decide} (hd : dec.Total) {ps : List Piece} (h : PiecesDef ps) (pos : Nat) :
    ∃ out, layAll dec ps pos = some out := lay_def hd h fun _ => rfl

theorem inOrder_def {f : Val → Nat → Option (List Bool)} : ∀ {vs : List Val} {pos : Nat},
    (∀ v ∈ vs, ∀ pos, ∃ out, f v pos = some out) → ∃ out, inOrder f vs pos = some out
  | [], _, _ => ⟨[], rfl⟩
  | v :: vs, pos, h => by
    obtain ⟨a, ha⟩ := h v (by simp) pos
    obtain ⟨b, hb⟩ := inOrder_def (vs := vs) (pos := pos + a.length) fun w hw => h w (by simp [hw])
    exact ⟨a ++ b, by simp only [inOrder, ha, hb, Option.bind_eq_bind, Option.bind_some]⟩

theorem lift_def {ps : List Piece} (h : PiecesDef ps) (i : Nat) : PiecesDef (ps.map (Piece.lift i)) := by
  intro p hp
  obtain ⟨q, hq, rfl⟩ := List.mem_map.mp hp
  have := h q hq
  cases q <;> exact this

theorem allPieces_def {f : Val → Option (List Piece)} : ∀ {vs : List Val},
    (∀ v ∈ vs, ∃ ps, f v = some ps ∧ PiecesDef ps) → ∃ ps, allPieces f vs = some ps ∧ PiecesDef ps
  | [], _ => ⟨[], rfl, fun _ h => by cases h⟩
  | v :: vs, h => by
    obtain ⟨a, ha, h1⟩ := h v (by simp)
    obtain ⟨b, hb, h2⟩ := allPieces_def (vs := vs) fun w hw => h w (by simp [hw])
    exact ⟨a ++ b, by simp only [allPieces, ha, hb, Option.bind_eq_bind, Option.bind_some],
      fun p hp => (List.mem_append.mp hp).elim (h1 p) (h2 p)⟩

theorem okV_def {k : Elem} (hk : k.Wf) {v : Val} (hv : k.OkV v) : ∃ b, scalar k (k.val v) = some b := by
  obtain ⟨y, rfl, hy⟩ := hv
  rw [k.val_inj]
  exact scalar_ok k hk y hy

/-- What is known about the types a declaration refers to. -/
structure Defined (m : Meth) (A : Bool → Val → Val → Prop) (F : Fmt) : Prop where
  plain : ∀ old v, A false old v → ∀ pos, ∃ out, F.plain v pos = some out
  pieces : ∀ old v, A true old v → ∃ ps, F.pieces v = some ps ∧ PiecesDef ps
  finite : ∀ c c', m.create c = .ok c' → F.finite = true

section fields
variable {dec : Decide} (hd : dec.Total) {ms : Nat → Meth} {A : Acc} {fm : Nat → Fmt}
  (H : ∀ n, Defined (ms n) (fun p => A p n) (fm n))
include hd H

theorem array_def {f : Field} {x : Exprs} {packed : Bool} {v : Val} (h : f.OkArr ms A x packed v) (pos : Nat) :
    ∃ out, array dec fm f x packed v pos = some out := by
  obtain ⟨vs, rfl, h1, h2, h3⟩ := h
  have hl : x.len = none ∨ x.len = some (vs.length : Int) := by
    cases hx : x.len with
    | none => exact Or.inl rfl
    | some l => exact Or.inr (by rw [h1 l hx])
  obtain ⟨a, ha⟩ : ∃ a, lengthField x vs.length = some a := by
    unfold lengthField
    split
    · rename_i hn
      exact varsize_some (h2 hn)
    · exact ⟨[], rfl⟩
  obtain ⟨b, hb⟩ : ∃ b, elements dec fm f x packed vs (pos + a.length) = some b := by
    unfold elements
    split
    · exact ⟨[], rfl⟩
    · cases ht : f.ty with
      | prim k =>
        rw [ht] at h3
        obtain ⟨hw, _, hok⟩ := h3
        dsimp only
        unfold primElems
        split
        · refine layAll_def hd (fun p hp => ?_) _
          obtain ⟨v, hv, rfl⟩ := List.mem_map.mp hp
          exact okV_def hw (hok v hv)
        · exact inOrder_def fun v hv _ => okV_def hw (hok v hv)
      | comp n =>
        rw [ht] at h3
        obtain ⟨hs, hok, hc⟩ := h3
        dsimp only
        rw [← setAll_eq, hs]
        unfold compElems
        split
        · rename_i hp
          obtain ⟨c, hc⟩ := hc hp
          rw [if_pos ((H n).finite _ _ hc)]
          subst hp
          obtain ⟨ps, hps, hdef⟩ := allPieces_def (f := (fm n).pieces) (vs := vs) fun v hv =>
            let ⟨old, ho⟩ := hok.mem v hv
            (H n).pieces old v ho
          simp only [hps, Option.bind_eq_bind, Option.bind_some]
          exact layAll_def hd hdef _
        · rename_i hp
          rw [Bool.not_eq_true] at hp
          subst hp
          refine inOrder_def fun v hv pos => ?_
          obtain ⟨old, ho⟩ := hok.mem v hv
          exact (H n).plain old v ho pos
  exact ⟨a ++ b, by simp only [array, hl, if_true, ha, hb, Option.bind_eq_bind, Option.bind_some]⟩

theorem value_def {f : Field} {x : Exprs} {old v : Val} (h : f.OkVal ms A x false old v) (pos : Nat) :
    ∃ out, value dec fm f x v pos = some out := by
  unfold Field.OkVal at h
  unfold value
  cases ha : f.arr with
  | some packed =>
    simp only [ha, Bool.or_false] at h ⊢
    exact array_def hd H h pos
  | none =>
    cases ht : f.ty with
    | prim k =>
      simp only [ha, ht] at h ⊢
      exact okV_def h.1 h.2
    | comp n =>
      simp only [ha, ht] at h ⊢
      rw [← setArgs_eq, h.1]
      exact (H n).plain _ _ h.2 pos

theorem field_def {f : Field} {x : Exprs} {old v : Val} (h : f.Ok ms A x false old v) (pos : Nat) :
    ∃ out, field dec fm f x v pos = some out := by
  unfold Field.Ok at h
  unfold field
  by_cases hx : x.active = true
  · rw [if_pos hx] at h ⊢
    dsimp only
    by_cases ho : f.optional = true
    · rw [if_pos ho] at h ⊢
      rcases h.2 with rfl | ⟨u, rfl, hu⟩
      · exact ⟨_, rfl⟩
      · obtain ⟨b, hb⟩ := value_def hd H hu (pos + (padding f.align pos).length + 1)
        simp only [hb, Option.bind_eq_bind, Option.bind_some]
        exact ⟨_, rfl⟩
    · rw [if_neg ho] at h ⊢
      obtain ⟨b, hb⟩ := value_def hd H h.2 (pos + (padding f.align pos).length)
      simp only [hb, Option.bind_eq_bind, Option.bind_some]
      exact ⟨_, rfl⟩
  · rw [if_neg hx]
    exact ⟨[], rfl⟩

theorem valuePieces_def {f : Field} {x : Exprs} {old v : Val} (h : f.OkVal ms A x true old v) :
    ∃ ps, valuePieces dec fm f x v = some ps ∧ PiecesDef ps := by
  unfold Field.OkVal at h
  unfold valuePieces
  cases ha : f.arr with
  | some packed =>
    simp only [ha, Bool.or_true] at h ⊢
    exact ⟨_, rfl, fun p hp => by rw [List.mem_singleton.mp hp]; exact array_def hd H h⟩
  | none =>
    cases ht : f.ty with
    | prim k =>
      simp only [ha, ht] at h ⊢
      split
      · exact ⟨_, rfl, fun p hp => by rw [List.mem_singleton.mp hp]; exact okV_def h.1 h.2⟩
      · exact ⟨_, rfl, fun p hp => by rw [List.mem_singleton.mp hp]; exact fun _ => okV_def h.1 h.2⟩
    | comp n =>
      simp only [ha, ht] at h ⊢
      rw [← setArgs_eq, h.1]
      exact (H n).pieces _ _ h.2

theorem fieldPieces_def {f : Field} {x : Exprs} {old v : Val} (h : f.Ok ms A x true old v) :
    ∃ ps, fieldPieces dec fm f x v = some ps ∧ PiecesDef ps := by
  have hpad : PieceDef (.raw fun pos => some (padding f.align pos)) := fun pos => ⟨_, rfl⟩
  have hflag : ∀ b : Bool, PieceDef (.raw fun _ => some [b]) := fun b pos => ⟨_, rfl⟩
  unfold Field.Ok at h
  unfold fieldPieces
  by_cases hx : x.active = true
  · rw [if_pos hx] at h ⊢
    dsimp only
    by_cases ho : f.optional = true
    · rw [if_pos ho] at h ⊢
      rcases h.2 with rfl | ⟨u, rfl, hu⟩
      · exact ⟨_, rfl, fun p hp => by rw [List.mem_singleton.mp hp]; exact hflag false⟩
      · obtain ⟨b, hb, hdef⟩ := valuePieces_def hd H hu
        simp only [hb, Option.bind_eq_bind, Option.bind_some]
        refine ⟨_, rfl, fun p hp => ?_⟩
        rcases List.mem_cons.mp hp with rfl | hp
        · exact hflag true
        rcases List.mem_cons.mp hp with rfl | hp
        · exact hpad
        · exact hdef p hp
    · rw [if_neg ho] at h ⊢
      obtain ⟨b, hb, hdef⟩ := valuePieces_def hd H h.2
      simp only [hb, Option.bind_eq_bind, Option.bind_some]
      refine ⟨_, rfl, fun p hp => ?_⟩
      rcases List.mem_cons.mp hp with rfl | hp
      · exact hpad
      · exact hdef p hp
  · rw [if_neg hx]
    exact ⟨[], rfl, fun p hp => by cases hp⟩

theorem fieldsIn_def {env : Env} : ∀ {fs : List Field} {olds vs : List Val} {pos : Nat}, OkLoop ms A false env fs olds vs →
    ∃ out, fieldsIn dec fm env fs vs pos = some out
  | [], [], [], _, _ => ⟨[], rfl⟩
  | f :: fs, o :: os, v :: vs, pos, h => by
    obtain ⟨a, ha⟩ := field_def hd H h.1 pos
    obtain ⟨b, hb⟩ := fieldsIn_def (pos := pos + a.length) h.2
    exact ⟨a ++ b, by simp only [fieldsIn, ha, hb, Option.bind_eq_bind, Option.bind_some]⟩
  | [], [], _ :: _, _, h | [], _ :: _, _, _, h | _ :: _, [], _, _, h | _ :: _, _ :: _, [], _, h => by
    simp only [OkLoop] at h

theorem fieldsPieces_def {env : Env} : ∀ {i : Nat} {fs : List Field} {olds vs : List Val}, OkLoop ms A true env fs olds vs →
    ∃ ps, fieldsPieces dec fm env i fs vs = some ps ∧ PiecesDef ps
  | _, [], [], [], _ => ⟨[], rfl, fun _ h => by cases h⟩
  | i, f :: fs, o :: os, v :: vs, h => by
    obtain ⟨a, ha, h1⟩ := fieldPieces_def hd H h.1
    obtain ⟨b, hb, h2⟩ := fieldsPieces_def (i := i + 1) h.2
    exact ⟨a.map (Piece.lift i) ++ b, by simp only [fieldsPieces, ha, hb, Option.bind_eq_bind, Option.bind_some],
      fun p hp => (List.mem_append.mp hp).elim (lift_def h1 i p) (h2 p)⟩
  | _, [], [], _ :: _, h | _, [], _ :: _, _, h | _, _ :: _, [], _, h | _, _ :: _, _ :: _, [], h => by
    simp only [OkLoop] at h

theorem fieldAt_def {fs : List Field} {i : Nat} {ps olds vs : List Val} (hl : ∀ f ∈ fs, f.Local 0)
    (h : OkAt ms A fs i false ps olds vs) (pos : Nat) : ∃ out, fieldAt dec fm fs i ps vs pos = some out := by
  obtain ⟨f, o, u, hf, ho, rfl, h⟩ := h
  have hu : (olds.set i u)[i]? = some u := by
    rw [List.getElem?_set_self (List.getElem?_eq_some_iff.mp ho).1]
  rw [hl f (List.mem_of_getElem? hf) ps olds (olds.set i u) rfl] at h
  obtain ⟨b, hb⟩ := field_def hd H h pos
  exact ⟨b, by simp only [fieldAt, hf, hu, hb, Option.bind_eq_bind, Option.bind_some]⟩

theorem fieldPiecesAt_def {fs : List Field} {i : Nat} {ps olds vs : List Val} (hl : ∀ f ∈ fs, f.Local 0)
    (h : OkAt ms A fs i true ps olds vs) : ∃ as, fieldPiecesAt dec fm fs i ps vs = some as ∧ PiecesDef as := by
  obtain ⟨f, o, u, hf, ho, rfl, h⟩ := h
  have hu : (olds.set i u)[i]? = some u := by
    rw [List.getElem?_set_self (List.getElem?_eq_some_iff.mp ho).1]
  rw [hl f (List.mem_of_getElem? hf) ps olds (olds.set i u) rfl] at h
  obtain ⟨b, hb, hdef⟩ := fieldPieces_def hd H h
  exact ⟨_, by simp only [fieldPiecesAt, hf, hu, hb, Option.bind_eq_bind, Option.bind_some], lift_def hdef i⟩

omit hd in
theorem finite_def : ∀ {fs : List Field} {cs : List Ctx}, createLoop ms fs = .ok cs → fs.all (fieldFinite fm) = true
  | [], _, _ => rfl
  | f :: fs, cs, h => by
    unfold createLoop at h
    cases hc : f.create ms with
    | error e => rw [hc] at h; cases h
    | ok c =>
      rw [hc] at h
      cases hr : createLoop ms fs with
      | error e => rw [hr] at h; cases h
      | ok ks =>
        rw [List.all_cons, finite_def hr, Bool.and_true]
        unfold Field.create at hc
        unfold fieldFinite
        cases ha : f.arr with
        | some p => rfl
        | none =>
          cases ht : f.ty with
          | prim k => rfl
          | comp n =>
            simp only [ha, ht] at hc
            exact (H n).finite _ _ hc

theorem decl_def {b : Nat} {P : Nat → Prop} {d : Decl} (hw : d.Wf) (hs : DeclSafe P d) (hu : ∀ fs, d ≠ .union fs) :
    Defined (d.meth ms) (fun p => d.Ok ms A p) (decl b dec fm d) := by
  have hfin : ∀ (fs : List Field) (c c' : Ctx),
      (match c with
        | .node d kids => do let cs ← createLoop ms fs; pure (.node d (kids ++ cs)) : Except Err Ctx) = .ok c' →
      fs.all (fieldFinite fm) = true := by
    intro fs c c' h
    cases c with
    | node d kids =>
      cases hr : createLoop ms fs with
      | error e => rw [hr] at h; cases h
      | ok ks => exact finite_def H hr
  cases d with
  | struct fs =>
    refine ⟨?_, ?_, hfin fs⟩
    · rintro _ _ ⟨t, ps, olds, vs, rfl, rfl, h⟩ pos
      exact fieldsIn_def hd H h
    · rintro _ _ ⟨t, ps, olds, vs, rfl, rfl, h⟩
      exact fieldsPieces_def hd H h
  | union fs => exact absurd rfl (hu fs)
  | choice sel cases dflt =>
    refine ⟨?_, ?_, hfin _⟩
    · rintro _ _ ⟨_, t, ps, olds, vs, rfl, rfl, h⟩ pos
      rw [pick_eq hs.1] at h
      simp only [decl]
      cases hc : chosen (sel ps) cases dflt with
      | none => exact ⟨[], rfl⟩
      | some i =>
        rw [hc] at h
        exact fieldAt_def hd H hw h pos
    · rintro _ _ ⟨_, t, ps, olds, vs, rfl, rfl, h⟩
      rw [pick_eq hs.1] at h
      simp only [decl]
      cases hc : chosen (sel ps) cases dflt with
      | none => exact ⟨[], rfl, fun _ h => by cases h⟩
      | some i =>
        rw [hc] at h
        exact fieldPiecesAt_def hd H hw h
  | enum k =>
    refine ⟨fun _ v h pos => okV_def hw.1 h, fun _ v h => ⟨_, rfl, fun p hp => ?_⟩, fun _ _ _ => rfl⟩
    rw [List.mem_singleton.mp hp]
    exact okV_def hw.1 h

omit H in
theorem schema_defined {b : Nat} {P : Nat → Prop} {schema : Nat → Decl} (hw : ∀ name, (schema name).Wf) (hs : SchemaSafe P schema)
    (hu : ∀ name fs, schema name ≠ .union fs) : ∀ n name,
    Defined (methods schema n name) (fun p => Accepts schema n p name) (format b dec schema n name)
  | 0, _ => ⟨fun _ _ h => h.elim, fun _ _ h => h.elim, fun _ _ h => by cases h⟩
  | n + 1, name => decl_def hd (schema_defined hw hs hu n) (hw name) (hs name).1 (hu name)

end fields

end Verif.Wire

namespace Verif.Wire

/-! ## Without packed arrays the decision does not matter -/

/-- No packed array anywhere. -/
def Unpacked : Decl → Prop
  | .struct fs | .union fs => ∀ f ∈ fs, f.arr ≠ some true
  | .choice _ cases dflt => ∀ f ∈ choiceFields cases dflt, f.arr ≠ some true
  | .enum _ => True

section
variable {dec dec' : Decide} {fm gm : Nat → Fmt} (hm : ∀ n v pos, (fm n).plain v pos = (gm n).plain v pos)
include hm

theorem field_plain {f : Field} (hf : f.arr ≠ some true) (x : Exprs) (v : Val) (pos : Nat) :
    field dec fm f x v pos = field dec' gm f x v pos := by
  have hv : ∀ v pos, value dec fm f x v pos = value dec' gm f x v pos := by
    intro v pos
    unfold value
    cases ha : f.arr with
    | some packed =>
      obtain rfl : packed = false := by
        cases packed with
        | false => rfl
        | true => exact absurd ha hf
      dsimp only
      cases v with
      | list vs =>
        have he : ∀ pos, elements dec fm f x false vs pos = elements dec' gm f x false vs pos := by
          intro pos
          unfold elements
          cases f.ty with
          | prim k => rfl
          | comp n =>
            have : inOrder (fm n).plain = inOrder (gm n).plain := by
              rw [show (fm n).plain = (gm n).plain from funext fun v => funext fun pos => hm n v pos]
            dsimp only
            unfold compElems
            rw [this]
            rfl
        simp only [array, he]
      | _ => rfl
    | none =>
      cases ht : f.ty with
      | prim k => rfl
      | comp n => exact hm n _ _
  unfold field
  simp only [hv]

theorem fieldsIn_plain {env : Env} : ∀ {fs : List Field} (vs : List Val) (pos : Nat), (∀ f ∈ fs, f.arr ≠ some true) →
    fieldsIn dec fm env fs vs pos = fieldsIn dec' gm env fs vs pos
  | [], [], _, _ => rfl
  | [], _ :: _, _, _ => rfl
  | _ :: _, [], _, _ => rfl
  | f :: fs, v :: vs, pos, h => by
    have ih : ∀ pos, fieldsIn dec fm env fs vs pos = fieldsIn dec' gm env fs vs pos :=
      fun pos => fieldsIn_plain vs pos fun g hg => h g (by simp [hg])
    simp only [fieldsIn, field_plain (dec := dec) (dec' := dec') hm (h f (by simp)), ih]

theorem fieldAt_plain {fs : List Field} (h : ∀ f ∈ fs, f.arr ≠ some true) (i : Nat) (ps vs : List Val) (pos : Nat) :
    fieldAt dec fm fs i ps vs pos = fieldAt dec' gm fs i ps vs pos := by
  unfold fieldAt
  cases hf : fs[i]? with
  | none => rfl
  | some f => simp only [Option.bind_eq_bind, Option.bind_some, field_plain (dec := dec) (dec' := dec') hm (h f (List.mem_of_getElem? hf))]

end

/-- Without packed arrays the format does not depend on the decision. -/
theorem format_plain {b : Nat} {dec dec' : Decide} {schema : Nat → Decl} (h : ∀ name, Unpacked (schema name)) :
    ∀ n name v pos, (format b dec schema n name).plain v pos = (format b dec' schema n name).plain v pos
  | 0, _, _, _ => rfl
  | n + 1, name, v, pos => by
    have ih := format_plain (b := b) (dec := dec) (dec' := dec') h n
    have hn := h name
    show (decl b dec _ (schema name)).plain v pos = (decl b dec' _ (schema name)).plain v pos
    cases hd : schema name with
    | struct fs =>
      rw [hd] at hn
      cases v with
      | obj t ps vs => exact fieldsIn_plain ih vs pos hn
      | _ => rfl
    | union fs =>
      rw [hd] at hn
      cases v with
      | obj t ps vs => simp only [decl, fieldAt_plain (dec := dec) (dec' := dec') ih hn]
      | _ => rfl
    | choice sel cases dflt =>
      rw [hd] at hn
      cases v with
      | obj t ps vs => simp only [decl, fieldAt_plain (dec := dec) (dec' := dec') ih hn]
      | _ => rfl
    | enum k => rfl

end Verif.Wire
