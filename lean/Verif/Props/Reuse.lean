import Verif.Props.Object

/-!
# Decoding into used objects: C47
-/

namespace Verif

section
variable (L : Nat → Val → Val → Prop)

/-- The two previous contents of a field are equal, or the field is always decoded and decoding does not look at them:
optional fields, arrays and builtin types anyway, nested objects if that holds for them in turn (with the parameters
set first). -/
def Field.Like (f : Field) (o o' : Val) : Prop :=
  o = o' ∨ ((∀ env, (f.exprs env).active = true) ∧
    (f.optional = false → f.arr = none → ∀ m, f.ty = .comp m → ∀ env,
      L m (Field.setArgs (f.exprs env) 0 o) (Field.setArgs (f.exprs env) 0 o')))

def LikeLoop : List Field → List Val → List Val → Prop
  | f :: fs, o :: os, o' :: os' => f.Like L o o' ∧ LikeLoop fs os os'
  | [], [], [] => True
  | _, _, _ => False

/-- Objects with the same parameters whose other contents may differ where decoding replaces them. -/
def Decl.Like (d : Decl) (old old' : Val) : Prop :=
  old = old' ∨
  match d with
  | .struct fs => ∃ t ps olds olds', old = .obj t ps olds ∧ old' = .obj t ps olds' ∧ LikeLoop L fs olds olds'
  | .enum _ => True
  | _ => False

end

/-- `Decl.Like` at nesting level `n`. -/
def Like (schema : Nat → Decl) : Nat → Nat → Val → Val → Prop
  | 0, _, _, _ => True
  | n + 1, name, old, old' => (schema name).Like (Like schema n) old old'

theorem Field.decode_like {ms : Nat → Meth} {L : Nat → Val → Val → Prop}
    (H : ∀ m old old', L m old old' → (ms m).unmarshal old = (ms m).unmarshal old') {f : Field} {o o' : Val}
    (h : f.Like L o o') (env : Env) : f.decode ms (f.exprs env) o = f.decode ms (f.exprs env) o' := by
  rcases h with rfl | ⟨ha, h⟩
  · rfl
  · unfold Field.decode
    rw [if_pos (ha env), if_pos (ha env)]
    cases ho : f.optional with
    | true => rfl
    | false =>
      have : f.readVal ms (f.exprs env) o = f.readVal ms (f.exprs env) o' := by
        unfold Field.readVal
        cases hr : f.arr with
        | some p => rfl
        | none =>
          cases ht : f.ty with
          | prim k => rfl
          | comp m => exact H m _ _ (h ho hr m ht env)
      rw [if_neg (by decide), if_neg (by decide), this]

theorem decLoop_like {ms : Nat → Meth} {L : Nat → Val → Val → Prop}
    (H : ∀ m old old', L m old old' → (ms m).unmarshal old = (ms m).unmarshal old') (ps : List Val) (fs : List Field)
    (done olds olds' : List Val) (hl : LocalFrom done.length fs) (h : LikeLoop L fs olds olds') :
    decLoop ms ps done fs olds = decLoop ms ps done fs olds' := by
  induction fs generalizing done olds olds' with
  | nil => cases olds <;> cases olds' <;> simp only [LikeLoop] at h; rfl
  | cons f fs ih =>
    cases olds <;> cases olds' <;> simp only [LikeLoop] at h
    rename_i o os o' os'
    unfold decLoop
    rw [hl.1 ps (done ++ o :: os) (done ++ o' :: os') (by simp), Field.decode_like H h.1]
    congr 1
    funext v
    exact ih (done ++ [v]) os os' (by rw [List.length_append]; exact hl.2) h.2

theorem unmarshal_like (schema : Nat → Decl) (hw : ∀ name, (schema name).Wf) (n : Nat) :
    ∀ name old old', Like schema n name old old' →
      (methods schema n name).unmarshal old = (methods schema n name).unmarshal old' := by
  induction n with
  | zero => intro name old old' _; rfl
  | succ n ih =>
    intro name old old' h
    rcases h with rfl | h
    · rfl
    · have hwn := hw name
      show ((schema name).meth (methods schema n)).unmarshal old = ((schema name).meth (methods schema n)).unmarshal old'
      cases hd : schema name with
      | struct fs =>
        rw [hd] at h hwn
        obtain ⟨t, ps, olds, olds', rfl, rfl, h⟩ := h
        show (do let vs ← decLoop (methods schema n) ps [] fs olds; pure (Val.obj t ps vs)) =
          (do let vs ← decLoop (methods schema n) ps [] fs olds'; pure (Val.obj t ps vs))
        rw [decLoop_like ih ps fs [] olds olds' hwn h]
      | union fs => rw [hd] at h; exact h.elim
      | choice sel cases dflt => rw [hd] at h; exact h.elim
      | enum k => rfl

/-- C47: unmarshalling the same input into two objects of a struct type that agree in their parameters and in the previous
contents of conditional fields, unions and choices gives the same result (value or error, and the same position), whatever the
previous contents of all other fields were.  Missing from the full claim: conditional fields, unions and choices, for which it is
wrong. -/
theorem C47_reuse_partial (schema : Nat → Decl) (hw : ∀ name, (schema name).Wf) (n name : Nat) (old old' : Val)
    (h : Like schema n name old old') (input : RState) :
    rrun ((methods schema n name).unmarshal old) input = rrun ((methods schema n name).unmarshal old') input := by
  rw [unmarshal_like schema hw n name old old' h]

/-- A point with any previous contents. -/
theorem exPoint_like (n : Nat) (ps : List Val) (a b c d a' b' c' d' : Val) :
    Like exSchema n 0 (.obj 0 ps [a, b, c, d]) (.obj 0 ps [a', b', c', d']) := by
  cases n with
  | zero => trivial
  | succ n =>
    refine Or.inr ⟨0, ps, _, _, rfl, rfl, Or.inr ⟨fun _ => rfl, ?_⟩, Or.inr ⟨fun _ => rfl, ?_⟩, Or.inr ⟨fun _ => rfl, ?_⟩,
      Or.inr ⟨fun _ => rfl, ?_⟩, trivial⟩ <;> intro _ _ m hm <;> cases hm

example (n : Nat) (a b c d e f g h : Val) (input : RState) :
    rrun ((methods exSchema n 0).unmarshal (.obj 0 [.bits 8 2#8] [a, b, c, d])) input =
      rrun ((methods exSchema n 0).unmarshal (.obj 0 [.bits 8 2#8] [e, f, g, h])) input :=
  C47_reuse_partial exSchema exSchema_wf n 0 _ _ (exPoint_like n _ a b c d e f g h) input

/-- A scene with any previous contents but that of the conditional field; the previous point may have had any
parameters. -/
example (n : Nat) (c a d e f g a' d' e' f' g' p q p' q' r s r' s' : Val) (ps ps' : List Val) (input : RState) :
    rrun ((methods exSchema n 2).unmarshal (.obj 0 [] [a, .obj 0 ps [p, q, r, s], c, d, e, f, g])) input =
      rrun ((methods exSchema n 2).unmarshal (.obj 0 [] [a', .obj 0 ps' [p', q', r', s'], c, d', e', f', g'])) input := by
  refine C47_reuse_partial exSchema exSchema_wf n 2 _ _ ?_ input
  cases n with
  | zero => trivial
  | succ n =>
    refine Or.inr ⟨0, [], _, _, rfl, rfl, Or.inr ⟨fun _ => rfl, ?_⟩, Or.inr ⟨fun _ => rfl, ?_⟩, Or.inl rfl,
      Or.inr ⟨fun _ => rfl, ?_⟩, Or.inr ⟨fun _ => rfl, ?_⟩, Or.inr ⟨fun _ => rfl, ?_⟩, Or.inr ⟨fun _ => rfl, ?_⟩, trivial⟩ <;>
      intro _ ha m hm
    · cases hm
    · cases hm
      intro env
      exact exPoint_like n _ _ _ _ _ _ _ _ _
    · cases ha
    · cases ha
    · cases ha
    · cases hm

/-- `struct C { uint8 n; uint8 v if n > 2; };` -/
def exCond : Nat → Decl := fun _ => .struct [exByte,
  ⟨fun e => ⟨decide (e.num 0 > 2), none, none, none⟩, 0, false, .prim (.bits 8 8), none, false⟩]

/-- C47 does not hold as stated: a conditional field keeps its previous contents. -/
theorem C47_violated_conditional :
    (rrun ((methods exCond 1 0).unmarshal (.obj 0 [] [.bits 8 0#8, .bits 8 0#8])) ⟨natBits 8 1, 0⟩).1 =
      .ok (.obj 0 [] [.bits 8 1#8, .bits 8 0#8]) ∧
    (rrun ((methods exCond 1 0).unmarshal (.obj 0 [] [.bits 8 0#8, .bits 8 7#8])) ⟨natBits 8 1, 0⟩).1 =
      .ok (.obj 0 [] [.bits 8 1#8, .bits 8 7#8]) :=
  ⟨Val.ok_of_beq (by decide +kernel), Val.ok_of_beq (by decide +kernel)⟩

/-- `union U { uint8 a; uint8 b; };` -/
def exUnion2 : Nat → Decl := fun _ => .union [exByte, exByte]

/-- C47 does not hold as stated: the members of a union that are not selected keep their previous contents. -/
theorem C47_violated_union :
    (rrun ((methods exUnion2 1 0).unmarshal (.obj 0 [] [.bits 8 0#8, .bits 8 0#8])) ⟨natBits 8 1 ++ natBits 8 5, 0⟩).1 =
      .ok (.obj 1 [] [.bits 8 5#8, .bits 8 0#8]) ∧
    (rrun ((methods exUnion2 1 0).unmarshal (.obj 2 [] [.bits 8 0#8, .bits 8 7#8])) ⟨natBits 8 1 ++ natBits 8 5, 0⟩).1 =
      .ok (.obj 1 [] [.bits 8 5#8, .bits 8 7#8]) :=
  ⟨Val.ok_of_beq (by decide +kernel), Val.ok_of_beq (by decide +kernel)⟩

end Verif
