import Verif.WireObj

/-!
# Fields and declarations against the wire format
-/

namespace Verif.Wire

/-! ## Conditions on the schema -/

/-- A field that generated code writes as the format says.  `P` are the types whose packed methods do.  Builtin types
have at most 64 bits in Go, the alignment fits a byte, packed arrays are of integers or types in `P`. -/
def FieldSafe (P : Nat → Prop) (f : Field) : Prop :=
  f.align < 256 ∧ (∀ k, f.ty = .prim k → Narrow k ∧ (f.arr = some true → k.isDelta = true)) ∧
    ∀ n, f.ty = .comp n → f.arr = some true → P n

/-- The same inside packed objects, where all arrays are packed and all types have to be in `P`. -/
def FieldPackSafe (P : Nat → Prop) (f : Field) : Prop :=
  f.align < 256 ∧ (∀ k, f.ty = .prim k → Narrow k ∧ (f.arr.isSome = true → k.isDelta = true)) ∧ ∀ n, f.ty = .comp n → P n

/-- The labels of a choice: one per case, all different; with a default every case has a field. -/
def LabelsSafe (cases : List (List Int × Option Field)) (dflt : Option Field) : Prop :=
  (∀ c ∈ cases, ∃ l, c.1 = [l]) ∧ (cases.map (·.1)).Nodup ∧ (dflt.isSome = true → ∀ c ∈ cases, c.2.isSome = true)

/-- Declarations whose unpacked methods follow the format. -/
def DeclSafe (P : Nat → Prop) : Decl → Prop
  | .struct fs | .union fs => ∀ f ∈ fs, FieldSafe P f
  | .choice _ cases dflt => LabelsSafe cases dflt ∧ ∀ f ∈ choiceFields cases dflt, FieldSafe P f
  | .enum k => Narrow k

/-- Declarations whose packed methods follow the format: no unions, no choices with a default. -/
def DeclPackSafe (P : Nat → Prop) : Decl → Prop
  | .struct fs => ∀ f ∈ fs, FieldPackSafe P f
  | .union _ => False
  | .choice _ cases dflt => dflt = none ∧ LabelsSafe cases dflt ∧ ∀ f ∈ choiceFields cases dflt, FieldPackSafe P f
  | .enum k => Narrow k ∧ k.isDelta = true

/-! ## Fields, unpacked -/

section
variable {ms : Nat → Meth} {fm : Nat → Fmt} {P : Nat → Prop} {f : Field} {x : Exprs}

theorem align_writes (h : f.align < 256) (s : List Bool) : Writes f.alignWr s (padding f.align s.length) := by
  unfold Field.alignWr padding
  by_cases h0 : f.align = 0
  · rw [if_pos h0, if_pos h0]
    exact Writes.pure s
  · rw [if_neg h0, if_neg h0]
    unfold Writes
    rw [wrun_bind, wrun_alignW (by omega) h]
    rfl

theorem bool_writes (b : Bool) (s : List Bool) : Writes (writeBool b) s [b] := wrun_bool b s

theorem value_writes (hf : FieldSafe P f) (hpl : ∀ n, Plain (ms n) (fm n)) (hpk : ∀ n, P n → Packed (ms n) (fm n))
    {v : Val} {s out : List Bool} (h : value goDec fm f x v s.length = some out) : Writes (f.writeVal ms x v) s out := by
  unfold value at h
  unfold Field.writeVal
  cases ha : f.arr with
  | some packed =>
    simp only [ha] at h ⊢
    refine arr_writes (fun k hk => ⟨(hf.2.1 k hk).1, fun hp => (hf.2.1 k hk).2 (by rw [ha, hp])⟩)
      (fun n hn => ⟨hpl n, fun hp => hpk n (hf.2.2 n hn (by rw [ha, hp]))⟩) h
  | none =>
    cases ht : f.ty with
    | prim k =>
      simp only [ha, ht] at h ⊢
      exact scalar_field _ (narrow_width (hf.2.1 k ht).1 _) _ h s
    | comp n =>
      simp only [ha, ht] at h ⊢
      rw [setArgs_eq]
      exact hpl n _ _ _ h

theorem field_writes (hf : FieldSafe P f) (hpl : ∀ n, Plain (ms n) (fm n)) (hpk : ∀ n, P n → Packed (ms n) (fm n))
    {v : Val} {s out : List Bool} (h : field goDec fm f x v s.length = some out) : Writes (f.encode ms x v) s out := by
  unfold field at h
  unfold Field.encode
  by_cases hx : x.active = true
  · rw [if_pos hx] at h
    rw [if_pos hx]
    dsimp only at h
    by_cases ho : f.optional = true
    · rw [if_pos ho] at h
      rw [if_pos ho]
      cases v with
      | none =>
        injection h with h
        subst h
        exact (align_writes hf.1 s).bind (bool_writes false _)
      | some u =>
        simp only [Option.bind_eq_bind, Option.bind_eq_some_iff] at h
        obtain ⟨b, hb, he⟩ := h
        injection he with he
        subst he
        refine (align_writes hf.1 s).bind ?_
        have := (bool_writes true (s ++ padding f.align s.length)).bind (k := fun _ => f.writeVal ms x u) (b := b)
          (value_writes hf hpl hpk (by
            simp only [List.length_append, List.length_singleton]; exact hb))
        exact this
      | _ => cases h
    · rw [if_neg ho] at h
      rw [if_neg ho]
      simp only [Option.bind_eq_bind, Option.bind_eq_some_iff] at h
      obtain ⟨b, hb, he⟩ := h
      injection he with he
      subst he
      exact (align_writes hf.1 s).bind (value_writes hf hpl hpk (by rw [List.length_append]; exact hb))
  · rw [if_neg hx] at h
    rw [if_neg hx]
    injection h with h
    subst h
    exact Writes.pure s

/-! ## Fields, packed -/

/-- Packed code of a field against the format. -/
def FieldPacked (ms : Nat → Meth) (fm : Nat → Fmt) (f : Field) : Prop := ∃ (L : List Nat → Prop) (G : Ctx → Prop),
  (fieldFinite fm f = true → ∃ c0, f.create ms = .ok c0 ∧ At L G c0 (fun _ d => d = DCtx.new)) ∧
  ∀ x v ps, fieldPieces goDec fm f x v = some ps → Known L ps ∧ Inits L G (f.init ms x v) ps ∧ Steps L G (f.encodeP ms x v) ps

theorem known_raw {g : Nat → Option (List Bool)} (L : List Nat → Prop) : Known L [.raw g] := by
  intro p o ho
  simp [occs] at ho

theorem pad_steps {L : List Nat → Prop} {G : Ctx → Prop} (h : f.align < 256) :
    Steps L G (WS.lift f.alignWr) [.raw fun pos => some (padding f.align pos)] := by
  refine Steps.raw fun s out ho => ?_
  injection ho with ho
  subst ho
  exact align_writes h s

theorem value_packed (hf : FieldPackSafe P f) (hpl : ∀ n, Plain (ms n) (fm n)) (hpk : ∀ n, P n → Packed (ms n) (fm n)) :
    ∃ (L : List Nat → Prop) (G : Ctx → Prop),
      (fieldFinite fm f = true → ∃ c0, f.create ms = .ok c0 ∧ At L G c0 (fun _ d => d = DCtx.new)) ∧
      ∀ x v ps, valuePieces goDec fm f x v = some ps → Known L ps ∧ Inits L G (f.initVal ms x v) ps ∧
        Steps L G (f.writeValP ms x v) (.raw (fun pos => some (padding f.align pos)) :: ps) := by
  cases ha : f.arr with
  | some packed =>
    refine ⟨fun _ => False, AnyShape, fun _ => ⟨Ctx.empty, by unfold Field.create; simp only [ha], trivial, fun p hp => hp.elim⟩,
      ?_⟩
    intro x v ps hps
    unfold valuePieces at hps
    simp only [ha, Option.some.injEq] at hps
    subst hps
    refine ⟨known_raw _, Inits.skip (fun c => by unfold Field.initVal; simp only [ha]) (fun _ => rfl), ?_⟩
    unfold Field.writeValP
    simp only [ha]
    refine (pad_steps hf.1).seq (Steps.raw fun s out ho => ?_)
    exact arr_writes (fun k hk => ⟨(hf.2.1 k hk).1, fun _ => (hf.2.1 k hk).2 (by rw [ha]; rfl)⟩)
      (fun n hn => ⟨hpl n, fun _ => hpk n (hf.2.2 n hn)⟩) ho
  | none =>
    cases ht : f.ty with
    | comp n =>
      obtain ⟨L, G, hc, hv⟩ := hpk n (hf.2.2 n ht)
      refine ⟨L, G, ?_, ?_⟩
      · intro hfin
        unfold fieldFinite at hfin
        simp only [ha, ht] at hfin
        unfold Field.create
        simp only [ha, ht]
        exact hc hfin
      · intro x v ps hps
        unfold valuePieces at hps
        simp only [ha, ht] at hps
        obtain ⟨h1, h2, h3⟩ := hv _ _ hps
        unfold Field.initVal Field.writeValP
        simp only [ha, ht, setArgs_eq]
        exact ⟨h1, h2, (pad_steps hf.1).seq h3⟩
    | prim k =>
      cases hd : k.isDelta with
      | true =>
        refine ⟨Here, AnyShape, fun _ => ⟨.node (some DCtx.new) [], by
          unfold Field.create; simp only [ha, ht, hd, if_true], trivial, ?_⟩, ?_⟩
        · rintro p rfl
          exact ⟨_, rfl, rfl⟩
        · intro x v ps hps
          unfold valuePieces at hps
          simp only [ha, ht, hd, if_true, Option.some.injEq] at hps
          subst hps
          refine ⟨known_delta (by rw [isDelta_width]; exact hd) (narrow_width (hf.2.1 k ht).1 _) v,
            Inits.delta _ v _ (fun d kids => by unfold Field.initVal; simp only [ha, ht, hd, if_true]), ?_⟩
          unfold Field.writeValP
          simp only [ha, ht, hd, if_true]
          exact (pad_steps hf.1).seq (Steps.delta _ v)
      | false =>
        refine ⟨fun _ => False, AnyShape, fun _ => ⟨Ctx.empty, by
          unfold Field.create; simp only [ha, ht, hd]; rfl, trivial, fun p hp => hp.elim⟩, ?_⟩
        intro x v ps hps
        unfold valuePieces at hps
        simp only [ha, ht, hd, Bool.false_eq_true, if_false, Option.some.injEq] at hps
        subst hps
        refine ⟨known_raw _, Inits.skip (fun c => by
          unfold Field.initVal; simp only [ha, ht, hd, Bool.false_eq_true, if_false]) (fun _ => rfl), ?_⟩
        unfold Field.writeValP
        simp only [ha, ht, hd, Bool.false_eq_true, if_false]
        exact (pad_steps hf.1).seq (Steps.raw fun s out ho => scalar_field _ (narrow_width (hf.2.1 k ht).1 _) _ ho s)

theorem flag_steps {L : List Nat → Prop} {G : Ctx → Prop} (b : Bool) :
    Steps L G (WS.lift (writeBool b)) [.raw fun _ => some [b]] := by
  refine Steps.raw fun s out ho => ?_
  injection ho with ho
  subst ho
  exact bool_writes b s

theorem field_packed (hf : FieldPackSafe P f) (hpl : ∀ n, Plain (ms n) (fm n)) (hpk : ∀ n, P n → Packed (ms n) (fm n)) :
    FieldPacked ms fm f := by
  obtain ⟨L, G, hc, hv⟩ := value_packed hf hpl hpk
  refine ⟨L, G, hc, ?_⟩
  intro x v ps hps
  unfold fieldPieces at hps
  unfold Field.init Field.encodeP
  by_cases hx : x.active = true
  · simp only [hx, if_true] at hps ⊢
    by_cases ho : f.optional = true
    · simp only [ho, if_true] at hps ⊢
      cases v with
      | none =>
        injection hps with hps
        subst hps
        exact ⟨known_raw _, Inits.skip (fun _ => rfl) (fun _ => rfl), flag_steps false⟩
      | some u =>
        simp only [Option.bind_eq_bind, Option.bind_eq_some_iff] at hps
        obtain ⟨qs, hq, he⟩ := hps
        injection he with he
        subst he
        obtain ⟨h1, h2, h3⟩ := hv x u qs hq
        exact ⟨h1, h2, (flag_steps true).seq h3⟩
      | _ => cases hps
    · simp only [ho, Bool.false_eq_true, if_false] at hps ⊢
      simp only [Option.bind_eq_bind, Option.bind_eq_some_iff] at hps
      obtain ⟨qs, hq, he⟩ := hps
      injection he with he
      subst he
      exact hv x v qs hq
  · simp only [hx, Bool.false_eq_true, if_false, Option.some.injEq] at hps ⊢
    subst hps
    exact ⟨fun p o ho => by simp [occs] at ho, Inits.skip (fun _ => rfl) (fun _ => rfl), Steps.nil⟩

end

/-! ## Structs -/

section struct
variable {ms : Nat → Meth} {fm : Nat → Fmt}

theorem fields_write {P : Nat → Prop} (hpl : ∀ n, Plain (ms n) (fm n)) (hpk : ∀ n, P n → Packed (ms n) (fm n)) (env : Env) :
    ∀ (fs : List Field) (vs : List Val) (s out : List Bool), (∀ f ∈ fs, FieldSafe P f) →
      fieldsIn goDec fm env fs vs s.length = some out → Writes (encLoop ms env fs vs) s out
  | [], [], s, out, _, h => by
    injection h with h
    subst h
    exact Writes.pure s
  | f :: fs, v :: vs, s, out, hf, h => by
    simp only [fieldsIn, Option.bind_eq_bind, Option.bind_eq_some_iff] at h
    obtain ⟨a, ha, b, hb, he⟩ := h
    injection he with he
    subst he
    exact (field_writes (hf f (by simp)) hpl hpk ha).bind
      (fields_write hpl hpk env fs vs (s ++ a) b (fun g hg => hf g (by simp [hg])) (by rw [List.length_append]; exact hb))
  | [], _ :: _, _, _, _, h => by cases h
  | _ :: _, [], _, _, _, h => by cases h

/-- Paths and shapes of all fields. -/
structure FInvs (ms : Nat → Meth) (fm : Nat → Fmt) (fs : List Field) (FL : Field → List Nat → Prop) (FG : Field → Ctx → Prop) :
    Prop where
  create : ∀ f ∈ fs, fieldFinite fm f = true → ∃ c0, f.create ms = .ok c0 ∧ At (FL f) (FG f) c0 (fun _ d => d = DCtx.new)
  known : ∀ f ∈ fs, ∀ x v ps, fieldPieces goDec fm f x v = some ps → Known (FL f) ps
  init : ∀ f ∈ fs, ∀ x v ps, fieldPieces goDec fm f x v = some ps → Inits (FL f) (FG f) (f.init ms x v) ps
  step : ∀ f ∈ fs, ∀ x v ps, fieldPieces goDec fm f x v = some ps → Steps (FL f) (FG f) (f.encodeP ms x v) ps

theorem fInvs_exists {fs : List Field} (h : ∀ f ∈ fs, FieldPacked ms fm f) : ∃ FL FG, FInvs ms fm fs FL FG := by
  have h' : ∀ f : Field, ∃ (L : List Nat → Prop) (G : Ctx → Prop), f ∈ fs →
      (fieldFinite fm f = true → ∃ c0, f.create ms = .ok c0 ∧ At L G c0 (fun _ d => d = DCtx.new)) ∧
      ∀ x v ps, fieldPieces goDec fm f x v = some ps →
        Known L ps ∧ Inits L G (f.init ms x v) ps ∧ Steps L G (f.encodeP ms x v) ps := by
    intro f
    by_cases hf : f ∈ fs
    · obtain ⟨L, G, a, b⟩ := h f hf
      exact ⟨L, G, fun _ => ⟨a, b⟩⟩
    · exact ⟨fun _ => False, AnyShape, fun h => (hf h).elim⟩
  choose FL FG h' using h'
  exact ⟨FL, FG, fun f hf => (h' f hf).1, fun f hf x v ps hp => ((h' f hf).2 x v ps hp).1,
    fun f hf x v ps hp => ((h' f hf).2 x v ps hp).2.1, fun f hf x v ps hp => ((h' f hf).2 x v ps hp).2.2⟩

theorem FInvs.tail {f : Field} {fs : List Field} {FL : Field → List Nat → Prop} {FG : Field → Ctx → Prop}
    (h : FInvs ms fm (f :: fs) FL FG) : FInvs ms fm fs FL FG :=
  ⟨fun g hg => h.create g (by simp [hg]), fun g hg => h.known g (by simp [hg]), fun g hg => h.init g (by simp [hg]),
    fun g hg => h.step g (by simp [hg])⟩

variable {FL : Field → List Nat → Prop} {FG : Field → Ctx → Prop}

/-- The children for the fields `fs`. -/
def KAt (FL : Field → List Nat → Prop) (FG : Field → Ctx → Prop) (fs : List Field) (kids : List Ctx)
    (P : Nat → List Nat → DCtx → Prop) : Prop :=
  ∀ i f, fs[i]? = some f → ∃ k, kids[i]? = some k ∧ At (FL f) (FG f) k (P i)

theorem KAt.mono {fs : List Field} {kids : List Ctx} {P Q : Nat → List Nat → DCtx → Prop} (h : KAt FL FG fs kids P)
    (hPQ : ∀ i p d, P i p d → Q i p d) : KAt FL FG fs kids Q :=
  fun i f hf => let ⟨k, h1, h2⟩ := h i f hf; ⟨k, h1, h2.mono (hPQ i)⟩

theorem KAt_cons {f : Field} {fs : List Field} {kids : List Ctx} {P : Nat → List Nat → DCtx → Prop} :
    KAt FL FG (f :: fs) kids P ↔
      ∃ k ks, kids = k :: ks ∧ At (FL f) (FG f) k (P 0) ∧ KAt FL FG fs ks (fun i => P (i + 1)) := by
  constructor
  · intro h
    obtain ⟨k, hk, h0⟩ := h 0 f rfl
    cases kids with
    | nil => simp at hk
    | cons k' ks =>
      simp only [List.getElem?_cons_zero, Option.some.injEq] at hk
      subst hk
      exact ⟨k', ks, rfl, h0, fun i g hg => h (i + 1) g (by simpa using hg)⟩
  · rintro ⟨k, ks, rfl, h0, h1⟩ i g hg
    cases i with
    | zero => simp only [List.getElem?_cons_zero, Option.some.injEq] at hg; subst hg; exact ⟨k, rfl, h0⟩
    | succ i => exact h1 i g (by simpa using hg)

theorem occs_fields_lt {env : Env} {i : Nat} {q : List Nat} : ∀ {fs : List Field} {vs : List Val} {j : Nat} {ps : List Piece},
    fieldsPieces goDec fm env j fs vs = some ps → i < j → occs (i :: q) ps = []
  | [], [], j, ps, h, _ => by
    injection h with h
    subst h
    rfl
  | f :: fs, v :: vs, j, ps, h, hij => by
    simp only [fieldsPieces, Option.bind_eq_bind, Option.bind_eq_some_iff] at h
    obtain ⟨a, ha, b, hb, he⟩ := h
    injection he with he
    subst he
    rw [occs_append, occs_lift_ne (by omega), occs_fields_lt hb (by omega)]
    rfl
  | [], _ :: _, _, _, h, _ => by cases h
  | _ :: _, [], _, _, h, _ => by cases h

/-- Paths of an object with the fields `fs`. -/
def SubPaths (FL : Field → List Nat → Prop) (fs : List Field) : List Nat → Prop
  | [] => False
  | i :: q => ∃ f, fs[i]? = some f ∧ FL f q

/-- Shape of its node. -/
def SubShape (FG : Field → Ctx → Prop) (fs : List Field) : Ctx → Prop
  | .node _ kids => ∀ (i : Nat) (f : Field), fs[i]? = some f → ∃ k, kids[i]? = some k ∧ FG f k

theorem at_node {fs : List Field} {d : Option DCtx} {kids : List Ctx} {P : List Nat → DCtx → Prop} :
    At (SubPaths FL fs) (SubShape FG fs) (.node d kids) P ↔ KAt FL FG fs kids (fun i q => P (i :: q)) := by
  constructor
  · rintro ⟨h1, h2⟩ i f hf
    obtain ⟨k, hk, hg⟩ := h1 i f hf
    refine ⟨k, hk, hg, fun q hq => ?_⟩
    obtain ⟨e, he, hp⟩ := h2 (i :: q) ⟨f, hf, hq⟩
    simp only [ctxAt, hk] at he
    exact ⟨e, he, hp⟩
  · intro h
    refine ⟨fun i f hf => let ⟨k, hk, hg⟩ := h i f hf; ⟨k, hk, hg.1⟩, ?_⟩
    rintro (_ | ⟨i, q⟩) hp
    · exact hp.elim
    · obtain ⟨f, hf, hq⟩ := hp
      obtain ⟨k, hk, hg⟩ := h i f hf
      obtain ⟨e, he, hp⟩ := hg.2 q hq
      exact ⟨e, by simp only [ctxAt, hk]; exact he, hp⟩

theorem create_ok : ∀ {fs : List Field}, FInvs ms fm fs FL FG → fs.all (fieldFinite fm) = true →
    ∃ ks, createLoop ms fs = .ok ks ∧ KAt FL FG fs ks (fun _ _ d => d = DCtx.new)
  | [], _, _ => ⟨[], rfl, fun i f hf => by simp at hf⟩
  | f :: fs, H, h => by
    simp only [List.all_cons, Bool.and_eq_true] at h
    obtain ⟨k, hk, ha⟩ := H.create f (by simp) h.1
    obtain ⟨ks, hks, hb⟩ := create_ok H.tail h.2
    refine ⟨k :: ks, ?_, KAt_cons.mpr ⟨k, ks, rfl, ha, hb⟩⟩
    unfold createLoop
    rw [hk, hks]
    rfl

theorem fields_known {env : Env} : ∀ {all fs : List Field} {vs : List Val} {j : Nat} {ps : List Piece},
    FInvs ms fm fs FL FG → fieldsPieces goDec fm env j fs vs = some ps → (∀ i f, fs[i]? = some f → all[j + i]? = some f) →
    Known (SubPaths FL all) ps
  | _, [], [], j, ps, _, h, _ => by
    injection h with h
    subst h
    intro p o ho
    simp [occs] at ho
  | all, f :: fs, v :: vs, j, ps, H, h, hall => by
    simp only [fieldsPieces, Option.bind_eq_bind, Option.bind_eq_some_iff] at h
    obtain ⟨a, ha, b, hb, he⟩ := h
    injection he with he
    subst he
    intro p o ho
    rw [occs_append, List.mem_append] at ho
    rcases ho with ho | ho
    · cases p with
      | nil => rw [occs_lift_nil] at ho; simp at ho
      | cons i q =>
        by_cases hij : j = i
        · subst hij
          rw [occs_lift] at ho
          obtain ⟨h1, h2⟩ := H.known f (by simp) _ _ _ ha q o ho
          exact ⟨⟨f, hall 0 f rfl, h1⟩, h2⟩
        · rw [occs_lift_ne hij] at ho; simp at ho
    · exact fields_known H.tail hb (fun i g hg => by
        have := hall (i + 1) g (by simpa using hg)
        rwa [Nat.add_assoc, Nat.add_comm 1 i]) p o ho
  | _, [], _ :: _, _, _, _, h, _ => by cases h
  | _, _ :: _, [], _, _, _, h, _ => by cases h

theorem fields_init {env : Env} : ∀ {fs : List Field} {vs : List Val} {j : Nat} {ps : List Piece} {kids : List Ctx}
    {hist : List Nat → List Occ}, FInvs ms fm fs FL FG → fieldsPieces goDec fm env j fs vs = some ps →
    KAt FL FG fs kids (fun i q d => d = DCtx.initAll occTr (hist ((j + i) :: q))) →
    ∃ kids', initLoop ms env fs vs kids = (.ok (), kids') ∧
      KAt FL FG fs kids' (fun i q d => d = DCtx.initAll occTr (hist ((j + i) :: q) ++ occs ((j + i) :: q) ps))
  | [], [], j, ps, kids, hist, _, h, _ => ⟨kids, by simp [initLoop], fun i f hf => by simp at hf⟩
  | f :: fs, v :: vs, j, ps, kids, hist, H, h, hk => by
    simp only [fieldsPieces, Option.bind_eq_bind, Option.bind_eq_some_iff] at h
    obtain ⟨a, ha, b, hb, he⟩ := h
    injection he with he
    subst he
    obtain ⟨k, ks, rfl, h0, h1⟩ := KAt_cons.mp hk
    obtain ⟨k', r1, g1⟩ := H.init f (by simp) _ _ _ ha k (fun q => hist (j :: q)) h0
    obtain ⟨ks', r2, g2⟩ := fields_init (hist := hist) H.tail hb (h1.mono fun i q d hd => by
      rw [Nat.add_assoc, Nat.add_comm 1 i]; exact hd)
    refine ⟨k' :: ks', ?_, KAt_cons.mpr ⟨k', ks', rfl, g1.mono ?_, g2.mono ?_⟩⟩
    · unfold initLoop
      rw [r1]
      dsimp only
      rw [r2]
    · intro q d hd
      rw [Nat.add_zero, occs_append, occs_lift, occs_fields_lt hb (Nat.lt_succ_self j), List.append_nil]
      exact hd
    · intro i q d hd
      rw [occs_append, occs_lift_ne (by omega), List.nil_append]
      rw [Nat.add_assoc, Nat.add_comm 1 i] at hd
      exact hd
  | [], _ :: _, _, _, _, _, _, h, _ => by cases h
  | _ :: _, [], _, _, _, _, _, h, _ => by cases h

theorem prefix_right {α : Type} {a b : List α} {c : List α} {n : Nat} (h : a ++ b <+: c.drop n) :
    b <+: c.drop (n + a.length) := by
  obtain ⟨t, ht⟩ := h
  rw [← List.drop_drop, ← ht, List.append_assoc, List.drop_left]
  exact List.prefix_append _ _

theorem fields_step {env : Env} : ∀ {fs : List Field} {vs : List Val} {j : Nat} {ps : List Piece} {kids : List Ctx}
    {all : List Nat → List Occ} {seen : List Nat → Nat} {s out : List Bool}, FInvs ms fm fs FL FG →
    fieldsPieces goDec fm env j fs vs = some ps →
    KAt FL FG fs kids (fun i q => After (all ((j + i) :: q)) (seen ((j + i) :: q))) → (∀ p, ∀ o ∈ all p, o.Fine) →
    (∀ p, occs p ps <+: (all p).drop (seen p)) → lay goDec all seen ps s.length = some out →
    ∃ kids', WM.run (encLoopP ms env fs vs kids) s = ((.ok (), kids'), s ++ out) ∧
      KAt FL FG fs kids' (fun i q => After (all ((j + i) :: q)) (seen ((j + i) :: q) + (occs ((j + i) :: q) ps).length))
  | [], [], j, ps, kids, all, seen, s, out, _, h, _, _, _, hl => by
    injection h with h
    subst h
    injection hl with hl
    subst hl
    exact ⟨kids, by simp [encLoopP, WM.run_pure], fun i f hf => by simp at hf⟩
  | f :: fs, v :: vs, j, ps, kids, all, seen, s, out, H, h, hk, hfine, hp, hl => by
    simp only [fieldsPieces, Option.bind_eq_bind, Option.bind_eq_some_iff] at h
    obtain ⟨a, ha, b, hb, he⟩ := h
    injection he with he
    subst he
    obtain ⟨k, ks, rfl, h0, h1⟩ := KAt_cons.mp hk
    obtain ⟨x, y, l1, l2, rfl⟩ := lay_append hl
    rw [lay_lift] at l1
    simp only [occs_append] at hp
    obtain ⟨k', r1, g1⟩ := H.step f (by simp) _ _ _ ha k (fun q => all (j :: q)) (fun q => seen (j :: q)) s x h0
      (fun q => hfine (j :: q))
      (fun q => by
        have := (List.prefix_append _ _).trans (hp (j :: q))
        rwa [occs_lift] at this) l1
    obtain ⟨ks', r2, g2⟩ := fields_step (all := all) (seen := fun p => seen p + (occs p (a.map (Piece.lift j))).length)
      (s := s ++ x) H.tail hb (h1.mono fun i q d hd => by
        rw [occs_lift_ne (by omega), List.length_nil, Nat.add_zero, Nat.add_assoc, Nat.add_comm 1 i]; exact hd) hfine
      (fun p => prefix_right (hp p)) (by rw [List.length_append]; exact l2)
    refine ⟨k' :: ks', ?_, KAt_cons.mpr ⟨k', ks', rfl, g1.mono ?_, g2.mono ?_⟩⟩
    · show WM.run (WM.bind (f.encodeP ms (f.exprs env) v k) _) s = _
      rw [WM.run_bind, r1]
      dsimp only
      rw [WM.run_bind, r2, List.append_assoc]
      rfl
    · intro q d hd
      rw [Nat.add_zero, occs_append, occs_lift, occs_fields_lt hb (Nat.lt_succ_self j), List.append_nil]
      exact hd
    · intro i q d hd
      rw [occs_append, occs_lift_ne (by omega), List.nil_append]
      rw [occs_lift_ne (by omega), List.length_nil, Nat.add_zero, Nat.add_assoc, Nat.add_comm 1 i] at hd
      exact hd
  | [], _ :: _, _, _, _, _, _, _, _, _, h, _, _, _, _ => by cases h
  | _ :: _, [], _, _, _, _, _, _, _, _, h, _, _, _, _ => by cases h

theorem struct_packed {base : Nat} {fs : List Field} (H : ∀ f ∈ fs, FieldPacked ms fm f) :
    Packed (structMeth ms fs) (decl base goDec fm (.struct fs)) := by
  obtain ⟨FL, FG, H⟩ := fInvs_exists H
  refine ⟨SubPaths FL fs, SubShape FG fs, ?_, ?_⟩
  · intro hfin
    obtain ⟨ks, hks, ha⟩ := create_ok H hfin
    refine ⟨.node none ks, ?_, at_node.mpr ha⟩
    show (do let cs ← createLoop ms fs; pure (Ctx.node none ([] ++ cs))) = _
    rw [hks]
    rfl
  · intro v ps hps
    cases v with
    | obj t qs vs =>
      have hps : fieldsPieces goDec fm ⟨qs, vs⟩ 0 fs vs = some ps := hps
      refine ⟨fields_known H hps (fun i f hf => by rw [Nat.zero_add]; exact hf), ?_, ?_⟩
      · intro c hist hc
        cases c with
        | node d kids =>
          obtain ⟨kids', r, g⟩ := fields_init (hist := hist) H hps ((at_node.mp hc).mono fun i q d hd => by
            rw [Nat.zero_add]; exact hd)
          refine ⟨.node d kids', ?_, at_node.mpr (g.mono fun i q d hd => by rw [Nat.zero_add] at hd; exact hd)⟩
          show (let r := initLoop ms ⟨qs, vs⟩ fs vs kids; (r.1, Ctx.node d r.2)) = _
          rw [r]
      · intro c all seen s out hc hfine hp hl
        cases c with
        | node d kids =>
          obtain ⟨kids', r, g⟩ := fields_step H hps ((at_node.mp hc).mono fun i q d hd => by
            rw [Nat.zero_add]; exact hd) hfine hp hl
          refine ⟨.node d kids', ?_, at_node.mpr (g.mono fun i q d hd => by rw [Nat.zero_add] at hd; exact hd)⟩
          show WM.run (WM.bind (encLoopP ms ⟨qs, vs⟩ fs vs kids) _) s = _
          rw [WM.run_bind, r]
          rfl
    | _ => cases hps

end struct

/-! ## Choices -/

section choice

theorem pickCase_eq (x : Int) : ∀ (cases : List (List Int × Option Field)) (i : Nat),
    (∀ c ∈ cases, ∃ l, c.1 = [l]) → (cases.map (·.1)).Nodup → pickCase x cases i = (labelled x cases i).join
  | [], _, _, _ => rfl
  | (ls, fo) :: cs, i, h1, h2 => by
    obtain ⟨l, hl⟩ := h1 (ls, fo) (by simp)
    dsimp only at hl
    subst hl
    rw [List.map_cons, List.nodup_cons] at h2
    have ih := fun j => pickCase_eq x cs j (fun c hc => h1 c (by simp [hc])) h2.2
    have hno : x = l → labelled x cs i = none := by
      rintro rfl
      have hn := h2.1
      clear ih h2
      have h1' : ∀ c ∈ cs, ∃ l, c.1 = [l] := fun c hc => h1 c (by simp [hc])
      clear h1
      induction cs generalizing i with
      | nil => rfl
      | cons c cs ih =>
        obtain ⟨ms, fo'⟩ := c
        obtain ⟨l', hl'⟩ := h1' (ms, fo') (by simp)
        dsimp only at hl'
        subst hl'
        unfold labelled
        have hne : x ≠ l' := by
          rintro rfl
          exact hn (by simp)
        rw [if_neg (by simpa using hne)]
        exact ih _ (fun h => hn (by rw [List.map_cons, List.mem_cons]; exact Or.inr h)) (fun c hc => h1' c (by simp [hc]))
    unfold labelled
    cases fo with
    | none =>
      unfold pickCase
      rw [ih i]
      by_cases hx : x = l
      · rw [hno hx, if_pos (by simp [hx])]; rfl
      · rw [if_neg (by simpa using hx)]; rfl
    | some f =>
      unfold pickCase
      by_cases hx : x = l
      · rw [if_pos (by simp [hx]), if_pos (by simp [hx])]; rfl
      · rw [if_neg (by simp only [List.head?_cons, Option.some.injEq]; exact fun h => hx h.symm), if_neg (by simpa using hx), ih]; rfl

theorem labelled_some_none {x : Int} : ∀ {cases : List (List Int × Option Field)} {i : Nat},
    labelled x cases i = some none → ∃ c ∈ cases, c.2 = none
  | [], _, h => by cases h
  | (ls, fo) :: cs, i, h => by
    unfold labelled at h
    split at h
    · cases fo with
      | none => exact ⟨(ls, none), by simp, rfl⟩
      | some f => simp at h
    · obtain ⟨c, hc, he⟩ := labelled_some_none h
      exact ⟨c, by simp [hc], he⟩

theorem pick_eq {cases : List (List Int × Option Field)} {dflt : Option Field} (h : LabelsSafe cases dflt) (x : Int) :
    pick x cases dflt = chosen x cases dflt := by
  obtain ⟨h1, h2, h3⟩ := h
  unfold pick chosen
  rw [pickCase_eq x cases 0 h1 h2]
  cases hl : labelled x cases 0 with
  | none => cases dflt <;> rfl
  | some r =>
    cases r with
    | some i => rfl
    | none =>
      cases hd : dflt with
      | none => rfl
      | some f =>
        obtain ⟨c, hc, he⟩ := labelled_some_none hl
        have := h3 (by simp [hd]) c hc
        rw [he] at this
        simp at this

variable {ms : Nat → Meth} {fm : Nat → Fmt} {P : Nat → Prop}

theorem fieldAt_writes {fs : List Field} (hs : ∀ f ∈ fs, FieldSafe P f) (hpl : ∀ n, Plain (ms n) (fm n))
    (hpk : ∀ n, P n → Packed (ms n) (fm n)) {i : Nat} {ps vs : List Val} {s out : List Bool}
    (h : fieldAt goDec fm fs i ps vs s.length = some out) : i < fs.length ∧ Writes (encAt ms fs i ps vs) s out := by
  simp only [fieldAt, Option.bind_eq_bind, Option.bind_eq_some_iff] at h
  obtain ⟨f, hf, v, hv, h⟩ := h
  have hlt : i < fs.length := by
    by_contra hn
    rw [List.getElem?_eq_none (by omega)] at hf
    simp at hf
  refine ⟨hlt, ?_⟩
  unfold encAt
  rw [hf, hv]
  exact field_writes (hs f (List.mem_of_getElem? hf)) hpl hpk h

theorem KAt.set {FL : Field → List Nat → Prop} {FG : Field → Ctx → Prop} {fs : List Field} {kids : List Ctx}
    {A B : Nat → List Nat → DCtx → Prop} (h : KAt FL FG fs kids A) {i : Nat} {f : Field} (hf : fs[i]? = some f) {k : Ctx}
    (hk : At (FL f) (FG f) k (B i)) (hj : ∀ j, j ≠ i → ∀ q d, A j q d → B j q d) : KAt FL FG fs (kids.set i k) B := by
  intro j g hg
  obtain ⟨k', hk', ha⟩ := h j g hg
  by_cases hij : j = i
  · subst hij
    rw [hf] at hg
    injection hg with hg
    subst hg
    refine ⟨k, ?_, hk⟩
    rw [List.getElem?_set_self]
    by_contra hn
    rw [List.getElem?_eq_none (by omega)] at hk'
    cases hk'
  · exact ⟨k', by rw [List.getElem?_set_ne (Ne.symm hij)]; exact hk', ha.mono (hj j hij)⟩

theorem choice_packed {base : Nat} {sel : List Val → Int} {cases : List (List Int × Option Field)}
    (hlab : LabelsSafe cases none) (H : ∀ f ∈ choiceFields cases none, FieldPacked ms fm f) :
    Packed (choiceMeth ms sel cases none) (decl base goDec fm (.choice sel cases none)) := by
  obtain ⟨FL, FG, H⟩ := fInvs_exists H
  refine ⟨SubPaths FL (choiceFields cases none), SubShape FG (choiceFields cases none), ?_, ?_⟩
  · intro hfin
    obtain ⟨ks, hks, ha⟩ := create_ok H hfin
    refine ⟨.node none ks, ?_, at_node.mpr ha⟩
    show (do let cs ← createLoop ms (choiceFields cases none); pure (Ctx.node none ([] ++ cs))) = _
    rw [hks]
    rfl
  · intro v ps hps
    cases v with
    | obj t qs vs =>
      have hps : (match chosen (sel qs) cases none with
          | some i => fieldPiecesAt goDec fm (choiceFields cases none) i qs vs
          | none => some []) = some ps := hps
      have hpick := pick_eq hlab (sel qs)
      have hpc : pickCase (sel qs) cases 0 = chosen (sel qs) cases none := by
        rw [← hpick]
        unfold pick
        cases pickCase (sel qs) cases 0 <;> rfl
      cases hch : chosen (sel qs) cases none with
      | none =>
        rw [hch] at hps hpick hpc
        injection hps with hps
        subst hps
        refine ⟨fun p o ho => by simp [occs] at ho, Inits.skip ?_ (fun _ => rfl), Steps.nil.congr ?_⟩
        · rintro ⟨d, kids⟩
          show (if cases.isEmpty = true then _ else _) = _
          split
          · rfl
          · rw [hpc]
        · rintro ⟨d, kids⟩ s c' t' hr
          show WM.run (if cases.isEmpty = true then _ else _) s = _
          split
          · exact hr
          · rw [hpick]; exact hr
      | some i =>
        rw [hch] at hps hpick hpc
        dsimp only at hps
        simp only [fieldPiecesAt, Option.bind_eq_bind, Option.bind_eq_some_iff] at hps
        obtain ⟨f, hf, v, hv, a, ha, he⟩ := hps
        injection he with he
        subst he
        have hmem := List.mem_of_getElem? hf
        have hne : cases.isEmpty = false := by
          cases cases with
          | nil => simp [choiceFields] at hf
          | cons c cs => rfl
        refine ⟨?_, ?_, ?_⟩
        · intro p o ho
          cases p with
          | nil => rw [occs_lift_nil] at ho; simp at ho
          | cons j q =>
            by_cases hij : i = j
            · subst hij
              rw [occs_lift] at ho
              obtain ⟨h1, h2⟩ := H.known f hmem _ _ _ ha q o ho
              exact ⟨⟨f, hf, h1⟩, h2⟩
            · rw [occs_lift_ne hij] at ho; simp at ho
        · rintro ⟨d, kids⟩ hist hc
          have hk := at_node.mp hc
          obtain ⟨k, hk1, hk2⟩ := hk i f hf
          obtain ⟨k', r, g⟩ := H.init f hmem _ _ _ ha k (fun q => hist (i :: q)) hk2
          refine ⟨.node d (kids.set i k'), ?_, at_node.mpr (hk.set hf (g.mono fun q e he => ?_) fun j hj q e he => ?_)⟩
          · show (if cases.isEmpty = true then _ else _) = _
            rw [if_neg (by simp [hne]), hpc]
            dsimp only
            rw [hf, hv, hk1]
            simp only [r]
          · rw [occs_lift]; exact he
          · rw [occs_lift_ne (Ne.symm hj), List.append_nil]; exact he
        · rintro ⟨d, kids⟩ all seen s out hc hfine hp hl
          have hk := at_node.mp hc
          obtain ⟨k, hk1, hk2⟩ := hk i f hf
          rw [lay_lift] at hl
          obtain ⟨k', r, g⟩ := H.step f hmem _ _ _ ha k (fun q => all (i :: q)) (fun q => seen (i :: q)) s out hk2
            (fun q => hfine (i :: q)) (fun q => by
              have := hp (i :: q)
              rwa [occs_lift] at this) hl
          refine ⟨.node d (kids.set i k'), ?_, at_node.mpr (hk.set hf (g.mono fun q e he => ?_) fun j hj q e he => ?_)⟩
          · show WM.run (if cases.isEmpty = true then _ else _) s = _
            rw [if_neg (by simp [hne]), hpick]
            dsimp only
            rw [hf, hv, hk1]
            dsimp only
            rw [WM.run_bind, r]
            rfl
          · rw [occs_lift]; exact he
          · rw [occs_lift_ne (Ne.symm hj), List.length_nil, Nat.add_zero]; exact he
    | _ => cases hps

end choice

/-! ## All declarations -/

section decls
variable {ms : Nat → Meth} {fm : Nat → Fmt} {P : Nat → Prop}

theorem enum_packed {base : Nat} {k : Elem} (hk : Narrow k) (hd : k.isDelta = true) :
    Packed (enumMeth k) (decl base goDec fm (.enum k)) := by
  refine ⟨Here, AnyShape, fun _ => ⟨.node (some DCtx.new) [], rfl, trivial, ?_⟩, ?_⟩
  · rintro p rfl
    exact ⟨_, rfl, rfl⟩
  · intro v ps hps
    have hps : some [Piece.leaf [] ⟨k, k.val v⟩] = some ps := hps
    injection hps with hps
    subst hps
    exact ⟨known_delta hd hk v, Inits.delta _ v _ (fun _ _ => rfl), Steps.delta k v⟩

theorem decl_plain {d : Decl} (hs : DeclSafe P d) (hpl : ∀ n, Plain (ms n) (fm n)) (hpk : ∀ n, P n → Packed (ms n) (fm n)) :
    Plain (d.meth ms) (decl 1 goDec fm d) := by
  intro v s out h
  cases d with
  | struct fs =>
    cases v with
    | obj t ps vs => exact fields_write hpl hpk ⟨ps, vs⟩ fs vs s out hs h
    | _ => cases h
  | enum k => exact scalar_field k hs _ h s
  | union fs =>
    cases v with
    | obj t ps vs =>
      have h : (if 1 ≤ t then (do
            let h ← varsize (t - 1 + 1)
            let b ← fieldAt goDec fm fs (t - 1) ps vs (s.length + h.length)
            some (h ++ b)) else none) = some out := h
      split at h
      · rename_i ht
        simp only [Option.bind_eq_bind, Option.bind_eq_some_iff] at h
        obtain ⟨a, ha, b, hb, he⟩ := h
        injection he with he
        subst he
        rw [Nat.sub_add_cancel ht] at ha
        rw [← List.length_append] at hb
        obtain ⟨hlt, hw⟩ := fieldAt_writes hs hpl hpk hb
        refine (varsize_writes ha s).bind ?_
        rw [if_pos ⟨ht, by omega⟩]
        exact hw
      · cases h
    | _ => cases h
  | choice sel cases dflt =>
    cases v with
    | obj t ps vs =>
      have h : (match chosen (sel ps) cases dflt with
          | some i => fieldAt goDec fm (choiceFields cases dflt) i ps vs s.length
          | none => some []) = some out := h
      show Writes (match pick (sel ps) cases dflt with
        | some i => encAt ms (choiceFields cases dflt) i ps vs
        | none => pure ()) s out
      rw [pick_eq hs.1]
      cases hch : chosen (sel ps) cases dflt with
      | none =>
        rw [hch] at h
        injection h with h
        subst h
        exact Writes.pure s
      | some i =>
        rw [hch] at h
        exact (fieldAt_writes hs.2 hpl hpk h).2
    | _ => cases h

theorem decl_packed {d : Decl} {base : Nat} (hs : DeclPackSafe P d) (hpl : ∀ n, Plain (ms n) (fm n))
    (hpk : ∀ n, P n → Packed (ms n) (fm n)) : Packed (d.meth ms) (decl base goDec fm d) := by
  cases d with
  | struct fs => exact struct_packed fun f hf => field_packed (hs f hf) hpl hpk
  | union fs => exact hs.elim
  | choice sel cases dflt =>
    obtain ⟨rfl, hl, hf⟩ := hs
    exact choice_packed hl fun f hf' => field_packed (hf f hf') hpl hpk
  | enum k => exact enum_packed hs.1 hs.2

end decls

/-- Every declaration of the schema is safe, and those in `P` are also when packed. -/
def SchemaSafe (P : Nat → Prop) (schema : Nat → Decl) : Prop :=
  ∀ name, DeclSafe P (schema name) ∧ (P name → DeclPackSafe P (schema name))

theorem schema_writes {P : Nat → Prop} {schema : Nat → Decl} (h : SchemaSafe P schema) : ∀ (n name : Nat),
    Plain (methods schema n name) (format 1 goDec schema n name) ∧
      (P name → Packed (methods schema n name) (format 1 goDec schema n name))
  | 0, _ => ⟨fun _ _ _ h => (by cases h), fun _ => ⟨fun _ => False, AnyShape, fun h => (by cases h), fun _ _ h => (by cases h)⟩⟩
  | n + 1, name =>
    have ih := schema_writes h n
    ⟨decl_plain (h name).1 (fun m => (ih m).1) (fun m => (ih m).2),
      fun hp => decl_packed ((h name).2 hp) (fun m => (ih m).1) (fun m => (ih m).2)⟩

end Verif.Wire
