import Verif.WirePack
import Verif.SchemaDecl
import Verif.Props.Array

/-!
# Generated code and the wire format

The methods of generated types write what `Wire.format` says.
-/

namespace Verif.Wire

/-! ## Pieces -/

theorem occs_append (p : List Nat) (a b : List Piece) : occs p (a ++ b) = occs p a ++ occs p b := by
  induction a with
  | nil => rfl
  | cons x a ih =>
    cases x with
    | leaf q o => simp only [List.cons_append, occs]; split <;> simp [ih]
    | raw f => simpa [occs] using ih

theorem occs_lift (i : Nat) (p : List Nat) (a : List Piece) : occs (i :: p) (a.map (Piece.lift i)) = occs p a := by
  induction a with
  | nil => rfl
  | cons x a ih =>
    cases x with
    | leaf q o => simp only [List.map_cons, Piece.lift, occs, List.cons.injEq, true_and, ih]
    | raw f => simpa [occs, Piece.lift] using ih

theorem occs_lift_ne {i j : Nat} (h : i ≠ j) (p : List Nat) (a : List Piece) : occs (j :: p) (a.map (Piece.lift i)) = [] := by
  induction a with
  | nil => rfl
  | cons x a ih =>
    cases x with
    | leaf q o => simp only [List.map_cons, Piece.lift, occs, List.cons.injEq, h, false_and, if_false, ih]
    | raw f => simpa [occs, Piece.lift] using ih

theorem occs_lift_nil (i : Nat) (a : List Piece) : occs [] (a.map (Piece.lift i)) = [] := by
  induction a with
  | nil => rfl
  | cons x a ih =>
    cases x with
    | leaf q o => simpa [occs, Piece.lift] using ih
    | raw f => simpa [occs, Piece.lift] using ih

theorem lay_lift (dec : Decide) (i : Nat) (a : List Piece) (all : List Nat → List Occ) (seen : List Nat → Nat) (pos : Nat) :
    lay dec all seen (a.map (Piece.lift i)) pos = lay dec (fun p => all (i :: p)) (fun p => seen (i :: p)) a pos := by
  induction a generalizing seen pos with
  | nil => rfl
  | cons x a ih =>
    cases x with
    | leaf q o =>
      simp only [List.map_cons, Piece.lift, lay, ih, List.cons.injEq, true_and]
    | raw f => simp only [List.map_cons, Piece.lift, lay, ih]

theorem lay_append {dec : Decide} {all : List Nat → List Occ} {a b : List Piece} {seen : List Nat → Nat} {pos : Nat}
    {out : List Bool} (h : lay dec all seen (a ++ b) pos = some out) :
    ∃ x y, lay dec all seen a pos = some x ∧ lay dec all (fun p => seen p + (occs p a).length) b (pos + x.length) = some y ∧
      out = x ++ y := by
  induction a generalizing seen pos out with
  | nil => exact ⟨[], out, rfl, by simpa [occs] using h, rfl⟩
  | cons c a ih =>
    cases c with
    | leaf q o =>
      simp only [List.cons_append, lay, Option.bind_eq_bind, Option.bind_eq_some_iff] at h
      obtain ⟨u, hu, w, hw, he⟩ := h
      obtain ⟨x, y, h1, h2, h3⟩ := ih hw
      refine ⟨u ++ x, y, ?_, ?_, ?_⟩
      · simp only [lay, hu, Option.bind_eq_bind, Option.bind_some, h1]
      · rw [List.length_append, ← Nat.add_assoc, ← h2]
        congr 1
        funext p
        by_cases hp : q = p
        · subst hp; simp [occs]; omega
        · simp [occs, hp, Ne.symm hp]
      · injection he with he
        rw [← he, h3, List.append_assoc]
    | raw f =>
      simp only [List.cons_append, lay, Option.bind_eq_bind, Option.bind_eq_some_iff] at h
      obtain ⟨u, hu, w, hw, he⟩ := h
      obtain ⟨x, y, h1, h2, h3⟩ := ih hw
      refine ⟨u ++ x, y, ?_, ?_, ?_⟩
      · simp only [lay, hu, Option.bind_eq_bind, Option.bind_some, h1]
      · rw [List.length_append, ← Nat.add_assoc, ← h2]
        rfl
      · injection he with he
        rw [← he, h3, List.append_assoc]

/-! ## Contexts -/

/-- The delta context at a path. -/
def ctxAt : Ctx → List Nat → Option DCtx
  | .node d _, [] => d
  | .node _ kids, i :: p => match kids[i]? with
    | some k => ctxAt k p
    | none => none
termination_by structural _ p => p

/-- The context `c` has the shape `G` and at every path in `L` a delta context with `P`. -/
def At (L : List Nat → Prop) (G : Ctx → Prop) (c : Ctx) (P : List Nat → DCtx → Prop) : Prop :=
  G c ∧ ∀ p, L p → ∃ d, ctxAt c p = some d ∧ P p d

theorem At.mono {L : List Nat → Prop} {G : Ctx → Prop} {c : Ctx} {P Q : List Nat → DCtx → Prop} (h : At L G c P)
    (hPQ : ∀ p d, P p d → Q p d) : At L G c Q :=
  ⟨h.1, fun p hp => let ⟨d, h1, h2⟩ := h.2 p hp; ⟨d, h1, hPQ p d h2⟩⟩

/-- Initialising with the values of the pieces `ps`. -/
def Inits (L : List Nat → Prop) (G : Ctx → Prop) (f : Ctx → Except Err Unit × Ctx) (ps : List Piece) : Prop :=
  ∀ (c : Ctx) (hist : List Nat → List Occ), At L G c (fun p d => d = DCtx.initAll occTr (hist p)) →
    ∃ c', f c = (.ok (), c') ∧ At L G c' (fun p d => d = DCtx.initAll occTr (hist p ++ occs p ps))

/-- Writing the pieces `ps`. -/
def Steps (L : List Nat → Prop) (G : Ctx → Prop) (w : WS Ctx) (ps : List Piece) : Prop :=
  ∀ (c : Ctx) (all : List Nat → List Occ) (seen : List Nat → Nat) (s out : List Bool),
    At L G c (fun p => After (all p) (seen p)) → (∀ p, ∀ o ∈ all p, o.Fine) →
    (∀ p, occs p ps <+: (all p).drop (seen p)) → lay goDec all seen ps s.length = some out →
    ∃ c', WM.run (w c) s = ((.ok (), c'), s ++ out) ∧ At L G c' (fun p => After (all p) (seen p + (occs p ps).length))

/-- The sequences are at the paths in `L`, of integer types. -/
def Known (L : List Nat → Prop) (ps : List Piece) : Prop := ∀ p, ∀ o ∈ occs p ps, L p ∧ o.Fine

/-- Packed methods against a format. -/
def Packed (m : Meth) (F : Fmt) : Prop := ∃ (L : List Nat → Prop) (G : Ctx → Prop),
  (F.finite = true → ∃ c0, m.create Ctx.empty = .ok c0 ∧ At L G c0 (fun _ d => d = DCtx.new)) ∧
  ∀ v ps, F.pieces v = some ps → Known L ps ∧ Inits L G (m.init v) ps ∧ Steps L G (m.marshalP v) ps

/-- Unpacked methods against a format. -/
def Plain (m : Meth) (F : Fmt) : Prop :=
  ∀ v s out, F.plain v s.length = some out → Writes (m.marshal v) s out

variable {L : List Nat → Prop} {G : Ctx → Prop}

theorem Inits.skip {f : Ctx → Except Err Unit × Ctx} {ps : List Piece} (hf : ∀ c, f c = (.ok (), c))
    (hp : ∀ p, occs p ps = []) : Inits L G f ps :=
  fun c hist h => ⟨c, hf c, h.mono fun p d hd => by rw [hp, List.append_nil]; exact hd⟩

theorem Steps.raw {w : Wr Unit} {g : Nat → Option (List Bool)}
    (h : ∀ s out, g s.length = some out → Writes w s out) : Steps L G (WS.lift w) [.raw g] := by
  intro c all seen s out hc _ _ hl
  simp only [lay, Option.bind_eq_bind, Option.bind_some, Option.bind_eq_some_iff] at hl
  obtain ⟨a, ha, he⟩ := hl
  simp only [List.append_nil, Option.some.injEq] at he
  subst he
  exact ⟨c, Field.run_lift (h s a ha) c, by simpa [occs] using hc⟩

theorem Steps.nil : Steps L G (WS.lift (pure ())) [] := by
  intro c all seen s out hc _ _ hl
  simp only [lay, Option.some.injEq] at hl
  subst hl
  exact ⟨c, Field.run_lift (Writes.pure s) c, by simpa [occs] using hc⟩

theorem Steps.seq {a b : WS Ctx} {ps qs : List Piece} (ha : Steps L G a ps) (hb : Steps L G b qs) :
    Steps L G (WS.seq a b) (ps ++ qs) := by
  intro c all seen s out hc hf hp hl
  obtain ⟨x, y, h1, h2, rfl⟩ := lay_append hl
  simp only [occs_append] at hp
  obtain ⟨c1, r1, g1⟩ := ha c all seen s x hc hf (fun p => (List.prefix_append _ _).trans (hp p)) h1
  have hp' : ∀ p, occs p qs <+: (all p).drop (seen p + (occs p ps).length) := by
    intro p
    obtain ⟨t, ht⟩ := hp p
    rw [← List.drop_drop, ← ht, List.append_assoc, List.drop_left]
    exact List.prefix_append _ _
  obtain ⟨c2, r2, g2⟩ := hb c1 all (fun p => seen p + (occs p ps).length) (s ++ x) y g1 hf hp'
    (by rw [List.length_append]; exact h2)
  refine ⟨c2, ?_, ?_⟩
  · unfold WS.seq
    rw [WM.run_bind, r1]
    dsimp only
    rw [r2, List.append_assoc]
  · refine g2.mono fun p d hd => ?_
    rw [occs_append, List.length_append, ← Nat.add_assoc]; exact hd

/-- Only successful runs matter. -/
theorem Steps.congr {a b : WS Ctx} {ps : List Piece} (ha : Steps L G a ps)
    (h : ∀ c s c' t, WM.run (a c) s = ((.ok (), c'), t) → WM.run (b c) s = ((.ok (), c'), t)) : Steps L G b ps := by
  intro c all seen s out hc hf hp hl
  obtain ⟨c', r, g⟩ := ha c all seen s out hc hf hp hl
  exact ⟨c', h _ _ _ _ r, g⟩

/-- The path of a node itself. -/
def Here : List Nat → Prop := fun p => p = []

/-- No condition on the shape. -/
def AnyShape : Ctx → Prop := fun _ => True

/-- One integer in the context of the node itself. -/
theorem Steps.delta (k : Elem) (v : Val) :
    Steps Here AnyShape (Field.deltaWrite k.vt v) [.leaf [] ⟨k, k.val v⟩] := by
  intro c all seen s out hc hf hp hl
  obtain ⟨d, hd, hA⟩ := hc.2 [] rfl
  cases c with
  | node dd kids =>
    simp only [ctxAt] at hd
    subst hd
    simp only [lay, Option.bind_eq_bind, Option.bind_some, Option.bind_eq_some_iff] at hl
    obtain ⟨a, ha, he⟩ := hl
    simp only [List.append_nil, Option.some.injEq] at he
    subst he
    have ho : (all [])[seen []]? = some ⟨k, k.val v⟩ := by
      obtain ⟨t, ht⟩ := hp []
      have : ((all []).drop (seen []))[0]? = some ⟨k, k.val v⟩ := by rw [← ht]; rfl
      simpa using this
    obtain ⟨c', r, g⟩ := chunk_writes (hf []) hA ho ha s
    refine ⟨.node (some c') kids, ?_, trivial, ?_⟩
    · show WM.run (WM.bind (DCtx.write k.vt v d) _) s = _
      have e : DCtx.write k.vt v d = DCtx.write occTr ⟨k, k.val v⟩ d := rfl
      rw [e, WM.run_bind, r]
      rfl
    · rintro p rfl
      exact ⟨c', rfl, by simpa [occs] using g⟩

theorem Inits.delta (k : Elem) (v : Val) (f : Ctx → Except Err Unit × Ctx)
    (hf : ∀ d kids, f (.node (some d) kids) = (.ok (), .node (some (DCtx.init k.vt d v)) kids)) :
    Inits Here AnyShape f [.leaf [] ⟨k, k.val v⟩] := by
  intro c hist hc
  obtain ⟨d, hd, hh⟩ := hc.2 [] rfl
  cases c with
  | node dd kids =>
    simp only [ctxAt] at hd
    subst hd hh
    refine ⟨_, hf _ _, trivial, ?_⟩
    rintro p rfl
    refine ⟨_, rfl, ?_⟩
    simp only [occs, if_true]
    unfold DCtx.initAll
    rw [List.foldl_append]
    rfl

theorem known_delta {k : Elem} (hd : k.isDelta = true) (hk : Narrow k) (v : Val) : Known Here [.leaf [] ⟨k, k.val v⟩] := by
  intro p o ho
  simp only [occs] at ho
  split at ho
  · rename_i h
    simp only [List.mem_singleton] at ho
    subst ho
    exact ⟨h.symm, hd, hk⟩
  · simp at ho

/-! ## Arrays -/

theorem objLoop {m : Meth} {F : Fmt} (h : ∀ v ps, F.pieces v = some ps → Steps L G (m.marshalP v) ps) :
    ∀ (vs : List Val) (ps : List Piece), allPieces F.pieces vs = some ps → Steps L G (ObjArr.packedLoop m false vs) ps
  | [], ps, hp => by
    simp only [allPieces, Option.some.injEq] at hp
    subst hp
    exact Steps.nil
  | v :: vs, ps, hp => by
    simp only [allPieces, Option.bind_eq_bind, Option.bind_eq_some_iff] at hp
    obtain ⟨a, ha, b, hb, he⟩ := hp
    injection he with he
    subst he
    refine ((h v a ha).seq (objLoop h vs b hb)).congr ?_
    intro c s c' t hr
    unfold WS.seq at hr
    rw [WM.run_bind] at hr
    show WM.run (WM.bind (ExceptT.run (pure ())) _) s = _
    rw [WM.run_bind]
    show WM.run (WM.bind (m.marshalP v c) _) s = _
    rw [WM.run_bind]
    rcases hm : WM.run (m.marshalP v c) s with ⟨⟨r, c1⟩, s1⟩
    rw [hm] at hr
    cases r with
    | ok u => exact hr
    | error x => simp [WM.run_pure] at hr

theorem objInit {m : Meth} {F : Fmt} (h : ∀ v ps, F.pieces v = some ps → Inits L G (m.init v) ps) :
    ∀ (vs : List Val) (ps : List Piece), allPieces F.pieces vs = some ps → Inits L G (ObjArr.initAll m vs) ps
  | [], ps, hp => by
    simp only [allPieces, Option.some.injEq] at hp
    subst hp
    exact Inits.skip (fun _ => rfl) fun _ => rfl
  | v :: vs, ps, hp => by
    simp only [allPieces, Option.bind_eq_bind, Option.bind_eq_some_iff] at hp
    obtain ⟨a, ha, b, hb, he⟩ := hp
    injection he with he
    subst he
    intro c hist hc
    obtain ⟨c1, r1, g1⟩ := h v a ha c hist hc
    obtain ⟨c2, r2, g2⟩ := objInit h vs b hb c1 (fun p => hist p ++ occs p a) g1
    refine ⟨c2, ?_, g2.mono fun p d hd => ?_⟩
    · unfold ObjArr.initAll
      rw [r1]
      exact r2
    · rw [occs_append, ← List.append_assoc]; exact hd

theorem known_all {F : Fmt} (h : ∀ v ps, F.pieces v = some ps → Known L ps) :
    ∀ (vs : List Val) (ps : List Piece), allPieces F.pieces vs = some ps → Known L ps
  | [], ps, hp => by
    simp only [allPieces, Option.some.injEq] at hp
    subst hp
    intro p o ho
    simp [occs] at ho
  | v :: vs, ps, hp => by
    simp only [allPieces, Option.bind_eq_bind, Option.bind_eq_some_iff] at hp
    obtain ⟨a, ha, b, hb, he⟩ := hp
    injection he with he
    subst he
    intro p o ho
    rw [occs_append, List.mem_append] at ho
    rcases ho with ho | ho
    · exact h v a ha p o ho
    · exact known_all h vs b hb p o ho

theorem comp_packed {m : Meth} {F : Fmt} (H : Packed m F) {vs : List Val} {s out : List Bool}
    (h : compElems goDec true F vs s.length = some out) : Writes (ObjArr.packed m false vs) s out := by
  obtain ⟨L, G, hc, hv⟩ := H
  unfold compElems at h
  rw [if_pos rfl] at h
  split at h
  · rename_i hfin
    simp only [Option.bind_eq_bind, Option.bind_eq_some_iff] at h
    obtain ⟨ps, hps, hl⟩ := h
    obtain ⟨c0, hc0, a0⟩ := hc hfin
    obtain ⟨c1, r1, a1⟩ := objInit (fun v ps h => (hv v ps h).2.1) vs ps hps c0 (fun _ => []) a0
    obtain ⟨c2, r2, _⟩ := objLoop (fun v ps h => (hv v ps h).2.2) vs ps hps c1 (fun p => occs p ps) (fun _ => 0) s out
      (a1.mono fun p d hd => Or.inl ⟨rfl, hd⟩) (fun p o ho => (known_all (fun v ps h => (hv v ps h).1) vs ps hps p o ho).2)
      (fun p => by simp) hl
    unfold ObjArr.packed
    rw [hc0]
    dsimp only
    rw [r1]
    show WM.run (WM.bind _ _) _ = _
    rw [WM.run_bind, r2]
    rfl
  · cases h

theorem comp_plain {m : Meth} {F : Fmt} (H : Plain m F) : ∀ {vs : List Val} {s out : List Bool},
    inOrder F.plain vs s.length = some out → Writes (ObjArr.plainLoop m false vs) s out
  | [], s, out, h => by
    simp only [inOrder, Option.some.injEq] at h
    subst h
    exact Writes.pure s
  | v :: vs, s, out, h => by
    simp only [inOrder, Option.bind_eq_bind, Option.bind_eq_some_iff] at h
    obtain ⟨a, ha, b, hb, he⟩ := h
    injection he with he
    subst he
    have h1 : Writes (m.marshal v) (s ++ []) a := H v _ a (by rw [List.append_nil]; exact ha)
    exact (Writes.pure s).bind (h1.dropErr.bind
      (k := fun _ => ObjArr.plainLoop m false vs) (comp_plain H (by rw [List.append_nil, List.length_append]; exact hb)))

theorem prim_plain {k : Elem} (hk : Narrow k) : ∀ {vs : List Val} {s out : List Bool},
    inOrder (fun v _ => scalar k (k.val v)) vs s.length = some out → Writes (Arr.plainLoop k.vt false vs) s out
  | [], s, out, h => by
    simp only [inOrder, Option.some.injEq] at h
    subst h
    exact Writes.pure s
  | v :: vs, s, out, h => by
    simp only [inOrder, Option.bind_eq_bind, Option.bind_eq_some_iff] at h
    obtain ⟨a, ha, b, hb, he⟩ := h
    injection he with he
    subst he
    have h1 : Writes (k.vt.write v) (s ++ []) a := scalar_trait k hk (k.val v) ha _
    exact (Writes.pure s).bind (h1.dropErr.bind
      (k := fun _ => Arr.plainLoop k.vt false vs) (prim_plain hk (by rw [List.append_nil, List.length_append]; exact hb)))

/-- The piece of an array element. -/
def elemLeaf (k : Elem) (v : Val) : Piece := .leaf [] ⟨k, k.val v⟩

theorem occs_leaves (os : List Occ) : occs [] (os.map (.leaf [])) = os := by
  induction os with
  | nil => rfl
  | cons o os ih => simp [occs, ih]

/-- The loop over the elements, for traits that act on occurrences. -/
theorem seq_loop {T : Type} (tr : Traits T) (occ : T → Occ) (htr : ∀ v c, DCtx.write tr v c = DCtx.write occTr (occ v) c)
    (all : List Nat → List Occ) (hf : ∀ o ∈ all [], o.Fine) :
    ∀ (vs : List T) (seen : List Nat → Nat) (c : DCtx) (s out : List Bool) (pos : Nat),
      After (all []) (seen []) c → (all []).drop (seen []) = vs.map occ →
      lay goDec all seen ((vs.map occ).map (.leaf [])) pos = some out →
      ∃ c', WM.run (Arr.packedLoop tr false vs c) s = ((.ok (), c'), s ++ out)
  | [], seen, c, s, out, pos, _, _, hl => by
    simp only [List.map_nil, lay, Option.some.injEq] at hl
    subst hl
    exact ⟨c, by simp [Arr.packedLoop, WM.run_pure]⟩
  | v :: vs, seen, c, s, out, pos, hc, hd, hl => by
    simp only [List.map_cons, lay, Option.bind_eq_bind, Option.bind_eq_some_iff] at hl
    obtain ⟨a, ha, b, hb, he⟩ := hl
    injection he with he
    subst he
    have ho : (all [])[seen []]? = some (occ v) := by
      have : ((all []).drop (seen []))[0]? = some (occ v) := by rw [hd]; rfl
      simpa using this
    obtain ⟨c1, r1, g1⟩ := chunk_writes hf hc ho ha s
    obtain ⟨c2, r2⟩ := seq_loop tr occ htr all hf vs (fun q => if q = [] then seen q + 1 else seen q) c1 (s ++ a) b _
      (by simpa using g1) (by
        have : ((all []).drop (seen [])).drop 1 = vs.map occ := by rw [hd]; rfl
        simpa [List.drop_drop] using this) hb
    refine ⟨c2, ?_⟩
    show WM.run (WM.bind (ExceptT.run (pure ())) _) s = _
    rw [WM.run_bind]
    show WM.run (WM.bind (DCtx.write tr v c) _) s = _
    rw [htr, WM.run_bind, r1]
    dsimp only
    rw [r2, List.append_assoc]

theorem seq_packed {T : Type} (tr : Traits T) (occ : T → Occ) (htr : ∀ v c, DCtx.write tr v c = DCtx.write occTr (occ v) c)
    (hin : ∀ vs, DCtx.initAll tr vs = DCtx.initAll occTr (vs.map occ)) {vs : List T} (hf : ∀ v ∈ vs, (occ v).Fine)
    {s out : List Bool} {pos : Nat} (h : layAll goDec ((vs.map occ).map (.leaf [])) pos = some out) :
    ∃ c, WM.run (Arr.packedLoop tr false vs (DCtx.initAll tr vs)) s = ((.ok (), c), s ++ out) := by
  unfold layAll at h
  refine seq_loop tr occ htr _ ?_ vs _ _ s out pos ?_ ?_ h
  · rw [occs_leaves]
    intro o ho
    obtain ⟨v, hv, rfl⟩ := List.mem_map.mp ho
    exact hf v hv
  · refine Or.inl ⟨rfl, ?_⟩
    rw [hin, occs_leaves]
  · rw [occs_leaves]
    rfl

theorem initAll_vt (k : Elem) (vs : List Val) :
    DCtx.initAll k.vt vs = DCtx.initAll occTr (vs.map fun v => ⟨k, k.val v⟩) := by
  unfold DCtx.initAll
  rw [List.foldl_map]
  rfl

theorem initAll_traits (k : Elem) (xs : List k.T) : DCtx.initAll k.traits xs = DCtx.initAll occTr (xs.map fun x => ⟨k, x⟩) := by
  unfold DCtx.initAll
  rw [List.foldl_map]
  rfl

theorem prim_packed {k : Elem} (hd : k.isDelta = true) (hk : Narrow k) {vs : List Val} {s out : List Bool}
    (h : layAll goDec (vs.map (elemLeaf k)) s.length = some out) :
    ∃ c, WM.run (Arr.packedLoop k.vt false vs (DCtx.initAll k.vt vs)) s = ((.ok (), c), s ++ out) := by
  refine seq_packed k.vt (fun v => ⟨k, k.val v⟩) (fun _ _ => rfl) (initAll_vt k) (fun _ _ => ⟨hd, hk⟩) (pos := s.length) ?_
  rw [List.map_map]
  exact h

theorem header_writes {x : Exprs} {packed : Bool} {n : Nat} {h : List Bool}
    (hh : lengthField x n = some h) (s : List Bool) :
    Writes (Arr.header (Field.cfg x packed) n) s h := by
  unfold Arr.header
  unfold lengthField at hh
  have e : (Field.cfg x packed).isAuto = x.len.isNone := rfl
  rw [e]
  cases hl : x.len with
  | none =>
    rw [if_pos hl] at hh
    exact varsize_writes hh s
  | some l =>
    rw [if_neg (by simp [hl])] at hh
    injection hh with hh
    subst hh
    exact Writes.pure s

theorem setArgs_eq (x : Exprs) (i : Nat) (v : Val) : Field.setArgs x i v = withArgs x i v := by
  unfold Field.setArgs withArgs
  cases x.args <;> cases v <;> rfl

theorem setAll_eq (x : Exprs) : ∀ (i : Nat) (vs : List Val), Field.setAll x i vs = withArgsFrom x i vs
  | _, [] => rfl
  | i, v :: vs => by unfold Field.setAll withArgsFrom; rw [setArgs_eq, setAll_eq x (i + 1) vs]

theorem length_withArgsFrom (x : Exprs) : ∀ (i : Nat) (vs : List Val), (withArgsFrom x i vs).length = vs.length
  | _, [] => rfl
  | i, v :: vs => by unfold withArgsFrom; rw [List.length_cons, length_withArgsFrom x (i + 1) vs, List.length_cons]

theorem narrow_width {k : Elem} (h : Narrow k) (w : Option Nat) : Narrow (k.withWidth w) := by
  cases k <;> cases w <;> exact h

theorem isDelta_width (k : Elem) (w : Option Nat) : (k.withWidth w).isDelta = k.isDelta := by
  cases k <;> cases w <;> rfl

theorem arr_writes {ms : Nat → Meth} {fm : Nat → Fmt} {f : Field} {x : Exprs} {packed : Bool}
    (hprim : ∀ k, f.ty = .prim k → Narrow k ∧ (packed = true → k.isDelta = true))
    (hcomp : ∀ n, f.ty = .comp n → Plain (ms n) (fm n) ∧ (packed = true → Packed (ms n) (fm n)))
    {v : Val} {s out : List Bool} (h : array goDec fm f x packed v s.length = some out) :
    Writes (f.writeArr ms x packed v) s out := by
  cases v with
  | list vs =>
    simp only [array] at h
    split at h
    · rename_i hlen
      simp only [Option.bind_eq_bind, Option.bind_eq_some_iff] at h
      obtain ⟨hd, hhd, b, hb, he⟩ := h
      injection he with he
      subst he
      unfold elements at hb
      have hm : Field.lenMatches x vs.length = true := by
        unfold Field.lenMatches
        rcases hlen with hlen | hlen <;> rw [hlen]
        simp
      unfold Field.writeArr
      dsimp only
      rw [if_pos hm]
      cases ht : f.ty with
      | prim k =>
        obtain ⟨hn, hdl⟩ := hprim k ht
        dsimp only
        rw [ht] at hb
        refine marshalW_writes (header_writes hhd s) ?_ ?_ ?_
        · intro hp hne
          have hp' : packed = true := hp
          subst hp'
          rw [if_neg hne] at hb
          dsimp only at hb
          unfold primElems at hb
          rw [isDelta_width, hdl rfl, if_pos (by rfl), ← List.length_append] at hb
          exact prim_packed (by rw [isDelta_width]; exact hdl rfl) (narrow_width hn _) hb
        · intro hp hne
          have hp' : packed = false := hp
          subst hp'
          rw [if_neg hne] at hb
          dsimp only at hb
          unfold primElems at hb
          rw [Bool.false_and, if_neg (by simp), ← List.length_append] at hb
          exact prim_plain (narrow_width hn _) hb
        · rintro rfl
          rw [if_pos rfl] at hb
          injection hb with hb
          exact hb.symm
      | comp n =>
        obtain ⟨hpl, hpk⟩ := hcomp n ht
        dsimp only
        rw [ht] at hb
        unfold ObjArr.marshal
        rw [setAll_eq, length_withArgsFrom]
        refine (header_writes hhd s).bind ?_
        cases vs with
        | nil =>
          rw [if_pos rfl] at hb
          injection hb with hb
          subst hb
          exact Writes.pure _
        | cons v vs =>
          rw [if_neg (by simp)] at hb
          dsimp only at hb
          rw [if_neg (by unfold withArgsFrom; simp)]
          have e : (Field.cfg x packed).isPacked = packed := rfl
          have e2 : (Field.cfg x packed).hasCheck = false := rfl
          rw [e, e2]
          cases packed with
          | true =>
            rw [if_pos rfl]
            exact comp_packed (hpk rfl) (by rw [List.length_append]; exact hb)
          | false =>
            rw [if_neg (by simp)]
            unfold compElems at hb
            rw [if_neg (by simp)] at hb
            exact comp_plain hpl (by rw [List.length_append]; exact hb)
    · cases h
  | _ => simp [array] at h

end Verif.Wire
