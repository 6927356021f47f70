import Verif.Props.Object

/-!
# C92: encoding a value ends, with calls nested no deeper than the value

`methodsFrom bottom schema n` are the methods of a schema in which calls nested deeper than `n` go to arbitrary other methods `bottom`
(`methods` is the case of a stack overflow).  That results do not depend on `bottom` says that these calls are never made; that they
do not depend on `n` either says that the limit of `methods` is only a device of the model.
-/

namespace Verif

/-- The methods of a schema, with `bottom` in place of calls nested deeper than the limit. -/
def methodsFrom (bottom : Nat → Meth) (schema : Nat → Decl) : Nat → Nat → Meth
  | 0, name => bottom name
  | n + 1, name => (schema name).meth (methodsFrom bottom schema n)

theorem methods_from (schema : Nat → Decl) (n : Nat) : methods schema n = methodsFrom (fun _ => overflowMeth) schema n := by
  induction n with
  | zero => rfl
  | succ n ih =>
    funext name
    show (schema name).meth (methods schema n) = (schema name).meth (methodsFrom _ schema n)
    rw [ih]

mutual
/-- How deep objects are nested in a value; the parameters of an object do not count. -/
def Val.nesting : Val → Nat
  | .some v => v.nesting
  | .list vs => max 1 (Val.nestings vs)
  | .obj _ _ fs => Val.nestings fs + 1
  | _ => 1
/-- The deepest of several values. -/
def Val.nestings : List Val → Nat
  | [] => 0
  | v :: vs => max v.nesting (Val.nestings vs)
end

/-- Creating a packing context for the type needs at most `d` nested calls: contexts are made for the types of all fields that are
no arrays, whether or not they are present. -/
def ContextDepth (schema : Nat → Decl) : Nat → Nat → Prop
  | 0, _ => False
  | d + 1, name => ∀ f ∈ (schema name).fields, f.arr = none → ∀ m, f.ty = .comp m → ContextDepth schema d m

/-- The types whose values are written packed: elements of packed arrays, and everything in them. -/
inductive WrittenPacked (schema : Nat → Decl) : Nat → Prop
  | elem {name : Nat} {f : Field} {m : Nat} (hf : f ∈ (schema name).fields) (hp : f.arr = some true) (hm : f.ty = .comp m) : WrittenPacked schema m
  | inner {name : Nat} {f : Field} {m : Nat} (h : WrittenPacked schema name) (hf : f ∈ (schema name).fields) (hm : f.ty = .comp m) : WrittenPacked schema m

/-- The type contains other types no deeper than `d`, also through arrays. -/
def TypeDepth (schema : Nat → Decl) : Nat → Nat → Prop
  | 0, _ => False
  | d + 1, name => ∀ f ∈ (schema name).fields, ∀ m, f.ty = .comp m → TypeDepth schema d m

theorem Val.nesting_pos : ∀ v : Val, 1 ≤ v.nesting
  | .bits _ _ | .bool _ | .str _ | .bytes _ | .extern _ | .none => by unfold Val.nesting; exact Nat.le_refl 1
  | .some v => by unfold Val.nesting; exact Val.nesting_pos v
  | .list vs => by unfold Val.nesting; exact Nat.le_max_left _ _
  | .obj _ _ fs => by unfold Val.nesting; omega

theorem Val.nesting_mem {v : Val} {vs : List Val} (h : v ∈ vs) : v.nesting ≤ Val.nestings vs := by
  induction vs with
  | nil => cases h
  | cons u us ih =>
    unfold Val.nestings
    rcases List.mem_cons.mp h with rfl | h
    · exact Nat.le_max_left _ _
    · exact (ih h).trans (Nat.le_max_right _ _)

theorem setArgs_nesting (x : Exprs) (i : Nat) (v : Val) : (Field.setArgs x i v).nesting = v.nesting := by
  unfold Field.setArgs
  split
  · unfold Val.nesting; rfl
  · rfl

theorem setAll_nestings (x : Exprs) (i : Nat) (vs : List Val) : Val.nestings (Field.setAll x i vs) = Val.nestings vs := by
  induction vs generalizing i with
  | nil => rfl
  | cons v vs ih =>
    unfold Field.setAll Val.nestings
    rw [setArgs_nesting, ih]

/-! ## Arrays -/

section arrays
variable {m m' : Meth}

theorem plainLoop_congr (check : Bool) (vs : List Val) (h : ∀ v ∈ vs, m.marshal v = m'.marshal v) :
    ObjArr.plainLoop m check vs = ObjArr.plainLoop m' check vs := by
  induction vs with
  | nil => rfl
  | cons v vs ih =>
    unfold ObjArr.plainLoop
    rw [h v List.mem_cons_self, ih fun u hu => h u (List.mem_cons_of_mem _ hu)]

theorem initAll_congr (vs : List Val) (h : ∀ v ∈ vs, ∀ c, m.init v c = m'.init v c) (c : Ctx) :
    ObjArr.initAll m vs c = ObjArr.initAll m' vs c := by
  induction vs generalizing c with
  | nil => rfl
  | cons v vs ih =>
    unfold ObjArr.initAll
    rw [h v List.mem_cons_self]
    simp only [ih fun u hu => h u (List.mem_cons_of_mem _ hu)]

theorem packedLoop_congr (check : Bool) (vs : List Val) (h : ∀ v ∈ vs, ∀ c, m.marshalP v c = m'.marshalP v c) (c : Ctx) :
    ObjArr.packedLoop m check vs c = ObjArr.packedLoop m' check vs c := by
  induction vs generalizing c with
  | nil => rfl
  | cons v vs ih =>
    unfold ObjArr.packedLoop
    simp only [h v List.mem_cons_self, ih fun u hu => h u (List.mem_cons_of_mem _ hu)]

theorem marshalArr_congr (cfg : ArrCfg) (vs : List Val) (h : ∀ v ∈ vs, m.marshal v = m'.marshal v)
    (hp : cfg.isPacked = true → (∀ c, m.create c = m'.create c) ∧ (∀ v ∈ vs, ∀ c, m.init v c = m'.init v c) ∧ ∀ v ∈ vs, ∀ c, m.marshalP v c = m'.marshalP v c) :
    ObjArr.marshal m cfg vs = ObjArr.marshal m' cfg vs := by
  unfold ObjArr.marshal
  rw [plainLoop_congr _ _ h]
  cases hc : cfg.isPacked with
  | false => simp
  | true =>
    obtain ⟨h1, h2, h3⟩ := hp hc
    unfold ObjArr.packed
    simp only [h1, initAll_congr _ h2, packedLoop_congr _ _ h3]

theorem sizeArr_congr (cfg : ArrCfg) (vs : List Val) (h : ∀ v ∈ vs, ∀ p, m.bitSize v p = m'.bitSize v p) (p : Int) :
    ObjArr.bitSize m cfg vs p = ObjArr.bitSize m' cfg vs p := by
  have key : ∀ (set : Bool) (p : Int), ObjArr.sizeLoop m set vs p = ObjArr.sizeLoop m' set vs p := by
    intro set
    induction vs with
    | nil => intro p; rfl
    | cons v vs ih =>
      intro p
      unfold ObjArr.sizeLoop
      simp only [h v List.mem_cons_self, ih fun u hu => h u (List.mem_cons_of_mem _ hu)]
  unfold ObjArr.bitSize
  simp only [key]

end arrays

/-! ## Two sets of methods that agree as far as the limit allows -/

/-- `ms` and `ms'` do the same with values that are nested at most `N - D` deep. -/
structure MethodsAgree (schema : Nat → Decl) (D N : Nat) (ms ms' : Nat → Meth) : Prop where
  marshal : ∀ i v, v.nesting + D ≤ N → (ms i).marshal v = (ms' i).marshal v
  bitSize : ∀ i v p, v.nesting + D ≤ N → (ms i).bitSize v p = (ms' i).bitSize v p
  create : ∀ d i c, ContextDepth schema d i → d ≤ N → (ms i).create c = (ms' i).create c
  init : ∀ i v c, WrittenPacked schema i → v.nesting + D ≤ N → (ms i).init v c = (ms' i).init v c
  marshalP : ∀ i v c, WrittenPacked schema i → v.nesting + D ≤ N → (ms i).marshalP v c = (ms' i).marshalP v c
  bitSizeP : ∀ i v c p, WrittenPacked schema i → v.nesting + D ≤ N → (ms i).bitSizeP v c p = (ms' i).bitSizeP v c p

namespace MethodsAgree
variable {schema : Nat → Decl} {D N : Nat} {ms ms' : Nat → Meth} {f : Field}

section field
variable (ha : MethodsAgree schema D N ms ms') (hD : ∀ i, WrittenPacked schema i → ContextDepth schema D i)
include ha hD

theorem writeArr (x : Exprs) (packed : Bool) (hp : packed = true → ∀ k, f.ty = .comp k → WrittenPacked schema k) (v : Val) (hv : v.nesting + D ≤ N) :
    f.writeArr ms x packed v = f.writeArr ms' x packed v := by
  unfold Field.writeArr
  split
  · rename_i vs
    congr 1
    split
    · rfl
    · rename_i k hk
      have hn : ∀ u ∈ Field.setAll x 0 vs, u.nesting + D ≤ N := by
        intro u hu
        have h1 := Val.nesting_mem hu
        rw [setAll_nestings] at h1
        unfold Val.nesting at hv
        omega
      refine marshalArr_congr _ _ (fun u hu => ha.marshal k u (hn u hu)) fun hc => ?_
      have hw := hp hc k hk
      refine ⟨fun c => ha.create D k c (hD k hw) ?_, fun u hu c => ha.init k u c hw (hn u hu), fun u hu c => ha.marshalP k u c hw (hn u hu)⟩
      omega
  · rfl

theorem encode (x : Exprs) (hp : f.arr = some true → ∀ k, f.ty = .comp k → WrittenPacked schema k) (v : Val) (hv : v.nesting + D ≤ N) :
    f.encode ms x v = f.encode ms' x v := by
  have key : ∀ v : Val, v.nesting + D ≤ N → f.writeVal ms x v = f.writeVal ms' x v := by
    intro v hv
    unfold Field.writeVal
    split
    · rename_i packed hpk
      exact ha.writeArr hD x packed (fun h => hp (by rw [hpk, h])) v hv
    · rfl
    · exact ha.marshal _ _ (by rw [setArgs_nesting]; exact hv)
  unfold Field.encode
  rw [key v hv]
  cases v with
  | some v =>
    unfold Val.nesting at hv
    simp only [key v hv]
  | _ => rfl

theorem writeValP (x : Exprs) (hp : ∀ k, f.ty = .comp k → WrittenPacked schema k) (v : Val) (hv : v.nesting + D ≤ N) :
    f.writeValP ms x v = f.writeValP ms' x v := by
  unfold Field.writeValP
  congr 1
  split
  · rw [ha.writeArr hD x true (fun _ => hp) v hv]
  · rename_i k _ hk
    funext c
    exact ha.marshalP k _ c (hp k hk) (by rw [setArgs_nesting]; exact hv)
  · rfl

theorem encodeP (x : Exprs) (hp : ∀ k, f.ty = .comp k → WrittenPacked schema k) (v : Val) (hv : v.nesting + D ≤ N) :
    f.encodeP ms x v = f.encodeP ms' x v := by
  unfold Field.encodeP
  rw [ha.writeValP hD x hp v hv]
  cases v with
  | some v =>
    unfold Val.nesting at hv
    simp only [ha.writeValP hD x hp v hv]
  | _ => rfl

omit hD in
theorem size (x : Exprs) (v : Val) (hv : v.nesting + D ≤ N) (p : Int) : f.size ms x v p = f.size ms' x v p := by
  have key : ∀ v : Val, v.nesting + D ≤ N → ∀ p, f.sizeVal ms x v p = f.sizeVal ms' x v p := by
    intro v hv p
    unfold Field.sizeVal
    split
    · rfl
    · rename_i k vs _ _
      rw [sizeArr_congr (m := ms k) (m' := ms' k) _ _ (fun u hu p => ha.bitSize _ u p ?_) p]
      have h1 := Val.nesting_mem hu
      rw [setAll_nestings] at h1
      unfold Val.nesting at hv
      omega
    · rfl
    · rfl
    · rename_i k _ _
      rw [ha.bitSize k (Field.setArgs x 0 _) p (by rw [setArgs_nesting]; exact hv)]
  unfold Field.size
  simp only [key v hv]
  cases v with
  | some v =>
    unfold Val.nesting at hv
    simp only [key v hv]
  | _ => rfl

omit hD in
theorem sizeP (x : Exprs) (hp : ∀ k, f.ty = .comp k → WrittenPacked schema k) (v : Val) (c : Ctx) (hv : v.nesting + D ≤ N) (p : Int) :
    f.sizeP ms x v c p = f.sizeP ms' x v c p := by
  have key : ∀ v : Val, v.nesting + D ≤ N → ∀ p, f.sizeValP ms x v c p = f.sizeValP ms' x v c p := by
    intro v hv p
    unfold Field.sizeValP
    split
    · rfl
    · rfl
    · rfl
    · rename_i k _ hk
      rw [ha.bitSizeP k (Field.setArgs x 0 _) c p (hp k hk) (by rw [setArgs_nesting]; exact hv)]
    · rfl
  unfold Field.sizeP
  simp only [key v hv]
  cases v with
  | some v =>
    unfold Val.nesting at hv
    simp only [key v hv]
  | _ => rfl

omit hD in
theorem init' (x : Exprs) (hp : ∀ k, f.ty = .comp k → WrittenPacked schema k) (v : Val) (c : Ctx) (hv : v.nesting + D ≤ N) :
    f.init ms x v c = f.init ms' x v c := by
  have key : ∀ v : Val, v.nesting + D ≤ N → f.initVal ms x v c = f.initVal ms' x v c := by
    intro v hv
    unfold Field.initVal
    split
    · rfl
    · rename_i k _ hk
      exact ha.init k _ c (hp k hk) (by rw [setArgs_nesting]; exact hv)
    · rfl
  unfold Field.init
  rw [key v hv]
  cases v with
  | some v =>
    unfold Val.nesting at hv
    simp only [key v hv]
  | _ => rfl

omit hD in
theorem create' (d : Nat) (hd : d ≤ N) (hp : f.arr = none → ∀ k, f.ty = .comp k → ContextDepth schema d k) : f.create ms = f.create ms' := by
  unfold Field.create
  split
  · rfl
  · rename_i k hk1 hk
    exact ha.create d k _ (hp hk1 k hk) hd
  · rfl

end field

section loops
variable (ha : MethodsAgree schema D N ms ms') (hD : ∀ i, WrittenPacked schema i → ContextDepth schema D i)
include ha

theorem createLoop (d : Nat) (hd : d ≤ N) (fs : List Field) (hp : ∀ f ∈ fs, f.arr = none → ∀ k, f.ty = .comp k → ContextDepth schema d k) :
    Verif.createLoop ms fs = Verif.createLoop ms' fs := by
  induction fs with
  | nil => rfl
  | cons f fs ih =>
    unfold Verif.createLoop
    rw [ha.create' d hd (hp f List.mem_cons_self), ih fun g hg => hp g (List.mem_cons_of_mem _ hg)]

theorem sizeLoop (env : Env) (fs : List Field) (vs : List Val) (hv : Val.nestings vs + D ≤ N) (p : Int) :
    Verif.sizeLoop ms env fs vs p = Verif.sizeLoop ms' env fs vs p := by
  induction fs generalizing vs p with
  | nil => cases vs <;> rfl
  | cons f fs ih =>
    cases vs with
    | nil => rfl
    | cons v vs =>
      unfold Val.nestings at hv
      unfold Verif.sizeLoop
      rw [ha.size _ v (by omega)]
      simp only [ih vs (by omega)]

theorem initLoop (env : Env) (fs : List Field) (hp : ∀ f ∈ fs, ∀ k, f.ty = .comp k → WrittenPacked schema k) (vs : List Val) (hv : Val.nestings vs + D ≤ N)
    (cs : List Ctx) : Verif.initLoop ms env fs vs cs = Verif.initLoop ms' env fs vs cs := by
  induction fs generalizing vs cs with
  | nil => cases vs <;> rfl
  | cons f fs ih =>
    cases vs with
    | nil => rfl
    | cons v vs =>
      cases cs with
      | nil => rfl
      | cons c cs =>
        unfold Val.nestings at hv
        unfold Verif.initLoop
        simp only [ha.init' _ (hp f List.mem_cons_self) v c (by omega), ih (fun g hg => hp g (List.mem_cons_of_mem _ hg)) vs (by omega)]

theorem sizeLoopP (env : Env) (fs : List Field) (hp : ∀ f ∈ fs, ∀ k, f.ty = .comp k → WrittenPacked schema k) (vs : List Val) (hv : Val.nestings vs + D ≤ N)
    (cs : List Ctx) (p : Int) : Verif.sizeLoopP ms env fs vs cs p = Verif.sizeLoopP ms' env fs vs cs p := by
  induction fs generalizing vs cs p with
  | nil => cases vs <;> rfl
  | cons f fs ih =>
    cases vs with
    | nil => rfl
    | cons v vs =>
      cases cs with
      | nil => rfl
      | cons c cs =>
        unfold Val.nestings at hv
        unfold Verif.sizeLoopP
        simp only [ha.sizeP _ (hp f List.mem_cons_self) v c (by omega), ih (fun g hg => hp g (List.mem_cons_of_mem _ hg)) vs (by omega)]

include hD

theorem encLoop (env : Env) (fs : List Field) (hp : ∀ f ∈ fs, f.arr = some true → ∀ k, f.ty = .comp k → WrittenPacked schema k) (vs : List Val)
    (hv : Val.nestings vs + D ≤ N) : Verif.encLoop ms env fs vs = Verif.encLoop ms' env fs vs := by
  induction fs generalizing vs with
  | nil => cases vs <;> rfl
  | cons f fs ih =>
    cases vs with
    | nil => rfl
    | cons v vs =>
      unfold Val.nestings at hv
      unfold Verif.encLoop
      rw [ha.encode hD _ (hp f List.mem_cons_self) v (by omega), ih (fun g hg => hp g (List.mem_cons_of_mem _ hg)) vs (by omega)]

theorem encLoopP (env : Env) (fs : List Field) (hp : ∀ f ∈ fs, ∀ k, f.ty = .comp k → WrittenPacked schema k) (vs : List Val)
    (hv : Val.nestings vs + D ≤ N) (cs : List Ctx) : Verif.encLoopP ms env fs vs cs = Verif.encLoopP ms' env fs vs cs := by
  induction fs generalizing vs cs with
  | nil => cases vs <;> rfl
  | cons f fs ih =>
    cases vs with
    | nil => rfl
    | cons v vs =>
      cases cs with
      | nil => rfl
      | cons c cs =>
        unfold Val.nestings at hv
        unfold Verif.encLoopP
        simp only [ha.encodeP hD _ (hp f List.mem_cons_self) v (by omega), ih (fun g hg => hp g (List.mem_cons_of_mem _ hg)) vs (by omega)]

theorem encAt (fs : List Field) (i : Nat) (ps vs : List Val) (hp : ∀ f ∈ fs, f.arr = some true → ∀ k, f.ty = .comp k → WrittenPacked schema k)
    (hv : Val.nestings vs + D ≤ N) : Verif.encAt ms fs i ps vs = Verif.encAt ms' fs i ps vs := by
  unfold Verif.encAt
  split
  · rename_i f v hf hv'
    refine ha.encode hD _ (hp f (List.mem_of_getElem? hf)) v ?_
    have := Val.nesting_mem (List.mem_of_getElem? hv')
    omega
  · rfl

omit hD in
theorem sizeAt (fs : List Field) (i : Nat) (ps vs : List Val) (hv : Val.nestings vs + D ≤ N) (p : Int) :
    Verif.sizeAt ms fs i ps vs p = Verif.sizeAt ms' fs i ps vs p := by
  unfold Verif.sizeAt
  split
  · rename_i f v hf hv'
    refine ha.size _ v ?_ p
    have := Val.nesting_mem (List.mem_of_getElem? hv')
    omega
  · rfl

omit hD in
theorem dflt (hD : ∀ i, WrittenPacked schema i → ContextDepth schema D i) (hN : D ≤ N) (hp : ∀ k, f.ty = .comp k → WrittenPacked schema k) :
    f.create ms = f.create ms' := ha.create' D hN fun _ k hk => hD k (hp k hk)

theorem step : MethodsAgree schema D (N + 1) (fun i => (schema i).meth ms) fun i => (schema i).meth ms' := by
  have hw : ∀ i, ∀ f ∈ (schema i).fields, f.arr = some true → ∀ k, f.ty = .comp k → WrittenPacked schema k := fun i f hf h k hk => .elem hf h hk
  have hi : ∀ i, WrittenPacked schema i → ∀ f ∈ (schema i).fields, ∀ k, f.ty = .comp k → WrittenPacked schema k := fun i h f hf k hk => .inner h hf hk
  have hn : ∀ {t ps fs}, (Val.obj t ps fs).nesting + D ≤ N + 1 → Val.nestings fs + D ≤ N := by
    intro t ps fs h
    unfold Val.nesting at h
    omega
  constructor
  · intro i v hv
    have hw := hw i
    revert hw
    cases schema i with
    | struct fs =>
      intro hw
      dsimp only [Decl.fields] at hw
      show (structMeth ms fs).marshal v = (structMeth ms' fs).marshal v
      unfold structMeth
      dsimp only
      split
      · exact ha.encLoop hD _ _ hw _ (hn hv)
      · rfl
    | union fs =>
      intro hw
      dsimp only [Decl.fields] at hw
      show (unionMeth ms fs).marshal v = (unionMeth ms' fs).marshal v
      unfold unionMeth
      dsimp only
      split
      · rw [ha.encAt hD _ _ _ _ hw (hn hv)]
      · rfl
    | choice sel cases dflt =>
      intro hw
      dsimp only [Decl.fields] at hw
      show (choiceMeth ms sel cases dflt).marshal v = (choiceMeth ms' sel cases dflt).marshal v
      unfold choiceMeth
      dsimp only
      split
      · split
        · exact ha.encAt hD _ _ _ _ hw (hn hv)
        · rfl
      · rfl
    | enum k => intro _; rfl
  · intro i v p hv
    cases schema i with
    | struct fs =>
      show (structMeth ms fs).bitSize v p = (structMeth ms' fs).bitSize v p
      unfold structMeth
      dsimp only
      split
      · rw [ha.sizeLoop _ _ _ (hn hv)]
      · rfl
    | union fs =>
      show (unionMeth ms fs).bitSize v p = (unionMeth ms' fs).bitSize v p
      unfold unionMeth
      dsimp only
      split
      · simp only [ha.sizeAt _ _ _ _ (hn hv)]
      · rfl
    | choice sel cases dflt =>
      show (choiceMeth ms sel cases dflt).bitSize v p = (choiceMeth ms' sel cases dflt).bitSize v p
      unfold choiceMeth
      dsimp only
      split
      · split
        · simp only [ha.sizeAt _ _ _ _ (hn hv)]
        · rfl
      · rfl
    | enum k => rfl
  · intro d i c hd hdN
    cases d with
    | zero => exact hd.elim
    | succ d =>
      have hd : ∀ f ∈ (schema i).fields, f.arr = none → ∀ m, f.ty = .comp m → ContextDepth schema d m := hd
      obtain ⟨x, kids⟩ := c
      revert hd
      cases schema i with
      | struct fs =>
        intro hd
        dsimp only [Decl.fields] at hd
        show (Verif.createLoop ms fs >>= fun cs => _) = (Verif.createLoop ms' fs >>= fun cs => _)
        rw [ha.createLoop d (by omega) fs hd]
      | union fs =>
        intro hd
        dsimp only [Decl.fields] at hd
        show (Verif.createLoop ms fs >>= fun cs => _) = (Verif.createLoop ms' fs >>= fun cs => _)
        rw [ha.createLoop d (by omega) fs hd]
      | choice sel cases dflt =>
        intro hd
        dsimp only [Decl.fields] at hd
        show (Verif.createLoop ms (choiceFields cases dflt) >>= fun cs => _) = (Verif.createLoop ms' (choiceFields cases dflt) >>= fun cs => _)
        rw [ha.createLoop d (by omega) _ hd]
      | enum k => intro _; rfl
  · intro i v c hp hv
    have hi := hi i hp
    revert hi
    cases schema i with
    | struct fs =>
      intro hi
      dsimp only [Decl.fields] at hi
      show (structMeth ms fs).init v c = (structMeth ms' fs).init v c
      unfold structMeth
      dsimp only
      split
      · simp only [ha.initLoop _ _ hi _ (hn hv)]
      · rfl
    | union fs =>
      intro hi
      dsimp only [Decl.fields] at hi
      show (unionMeth ms fs).init v c = (unionMeth ms' fs).init v c
      unfold unionMeth
      dsimp only
      split
      · simp only [ha.initLoop _ _ hi _ (hn hv)]
      · rfl
    | choice sel cases dflt =>
      intro hi
      dsimp only [Decl.fields] at hi
      show (choiceMeth ms sel cases dflt).init v c = (choiceMeth ms' sel cases dflt).init v c
      unfold choiceMeth
      dsimp only
      split
      · split
        · rfl
        · split
          · split
            · rename_i f u k hf hu _
              have := Val.nesting_mem (List.mem_of_getElem? hu)
              have := hn hv
              rw [ha.init' _ (hi f (List.mem_of_getElem? hf)) u k (by omega)]
            · rfl
          · split
            · rename_i f
              have := hn hv
              rw [ha.dflt hD (by omega) (hi f (by simp [choiceFields]))]
            · rfl
      · rfl
    | enum k => intro _; rfl
  · intro i v c hp hv
    have hi := hi i hp
    revert hi
    cases schema i with
    | struct fs =>
      intro hi
      dsimp only [Decl.fields] at hi
      show (structMeth ms fs).marshalP v c = (structMeth ms' fs).marshalP v c
      unfold structMeth
      dsimp only
      split
      · rw [ha.encLoopP hD _ _ hi _ (hn hv)]
      · rfl
    | union fs => intro _; rfl
    | choice sel cases dflt =>
      intro hi
      dsimp only [Decl.fields] at hi
      show (choiceMeth ms sel cases dflt).marshalP v c = (choiceMeth ms' sel cases dflt).marshalP v c
      unfold choiceMeth
      dsimp only
      split
      · split
        · rfl
        · split
          · split
            · rename_i f u k hf hu _
              have := Val.nesting_mem (List.mem_of_getElem? hu)
              have := hn hv
              rw [ha.encodeP hD _ (hi f (List.mem_of_getElem? hf)) u (by omega)]
            · rfl
          · rfl
      · rfl
    | enum k => intro _; rfl
  · intro i v c p hp hv
    have hi := hi i hp
    revert hi
    cases schema i with
    | struct fs =>
      intro hi
      dsimp only [Decl.fields] at hi
      show (structMeth ms fs).bitSizeP v c p = (structMeth ms' fs).bitSizeP v c p
      unfold structMeth
      dsimp only
      split
      · simp only [ha.sizeLoopP _ _ hi _ (hn hv)]
      · rfl
    | union fs => intro _; rfl
    | choice sel cases dflt =>
      intro hi
      dsimp only [Decl.fields] at hi
      show (choiceMeth ms sel cases dflt).bitSizeP v c p = (choiceMeth ms' sel cases dflt).bitSizeP v c p
      unfold choiceMeth
      dsimp only
      split
      · split
        · rfl
        · split
          · split
            · rename_i f u k hf hu _
              have := Val.nesting_mem (List.mem_of_getElem? hu)
              have := hn hv
              simp only [ha.sizeP _ (hi f (List.mem_of_getElem? hf)) u k (by omega)]
            · rfl
          · rfl
      · rfl
    | enum k => intro _; rfl

end loops

end MethodsAgree

theorem methods_agree (schema : Nat → Decl) (D : Nat) (hD : ∀ i, WrittenPacked schema i → ContextDepth schema D i) (b b' : Nat → Meth) :
    ∀ N n m, N ≤ n → N ≤ m → MethodsAgree schema D N (methodsFrom b schema n) (methodsFrom b' schema m) := by
  intro N
  induction N with
  | zero =>
    intro n m _ _
    have h0 : ∀ {v : Val}, ¬ v.nesting + D ≤ 0 := by
      intro v h
      have := v.nesting_pos
      omega
    refine ⟨fun _ _ h => absurd h h0, fun _ _ _ h => absurd h h0, fun d i c h hd => ?_, fun _ _ _ _ h => absurd h h0, fun _ _ _ _ h => absurd h h0,
      fun _ _ _ _ _ h => absurd h h0⟩
    obtain rfl : d = 0 := by omega
    exact h.elim
  | succ N ih =>
    intro n m hn hm
    obtain ⟨n, rfl⟩ : ∃ n', n = n' + 1 := ⟨n - 1, by omega⟩
    obtain ⟨m, rfl⟩ : ∃ m', m = m' + 1 := ⟨m - 1, by omega⟩
    exact (ih n m (by omega) (by omega)).step hD

/-! ## Types that do not contain themselves -/

section congr
variable {ms ms' : Nat → Meth}

/-- The methods of the type of a field are the same. -/
def Field.Same (ms ms' : Nat → Meth) (f : Field) : Prop := ∀ k, f.ty = .comp k → ms k = ms' k

namespace Field.Same
variable {f : Field} (h : f.Same ms ms')
include h

theorem zero : f.zero ms = f.zero ms' := by
  obtain ⟨e, a, o, ty, arr, c⟩ := f
  cases ty with
  | prim k => cases arr <;> rfl
  | comp k => unfold Field.zero Field.zeroVal; cases arr <;> simp only [h k rfl]

theorem zeroVal : f.zeroVal ms = f.zeroVal ms' := by
  obtain ⟨e, a, o, ty, arr, c⟩ := f
  cases ty with
  | prim k => cases arr <;> rfl
  | comp k => unfold Field.zeroVal; cases arr <;> simp only [h k rfl]

theorem writeArr : f.writeArr ms = f.writeArr ms' := by
  obtain ⟨e, a, o, ty, arr, c⟩ := f
  cases ty with
  | prim k => rfl
  | comp k => funext x p v; unfold Field.writeArr; simp only [h k rfl]

theorem readArr : f.readArr ms = f.readArr ms' := by
  obtain ⟨e, a, o, ty, arr, c⟩ := f
  cases ty with
  | prim k => rfl
  | comp k => funext x p; unfold Field.readArr; simp only [h k rfl]

theorem writeVal : f.writeVal ms = f.writeVal ms' := by
  funext x v
  unfold Field.writeVal
  rw [h.writeArr]
  split
  · rfl
  · rfl
  · rw [h _ ‹_›]

theorem readVal : f.readVal ms = f.readVal ms' := by
  funext x v
  unfold Field.readVal
  rw [h.readArr]
  split
  · rfl
  · rfl
  · rw [h _ ‹_›]

theorem encode : f.encode ms = f.encode ms' := by
  funext x v
  unfold Field.encode
  rw [h.writeVal]

theorem decode : f.decode ms = f.decode ms' := by
  funext x v
  unfold Field.decode
  rw [h.readVal, h.zeroVal]

theorem size : f.size ms = f.size ms' := by
  have : f.sizeVal ms = f.sizeVal ms' := by
    funext x v p
    unfold Field.sizeVal
    split
    · rfl
    · rw [h _ ‹_›]
    · rfl
    · rfl
    · rw [h _ ‹_›]
  funext x v p
  unfold Field.size
  rw [this]

theorem create : f.create ms = f.create ms' := by
  unfold Field.create
  split
  · rfl
  · rw [h _ ‹_›]
  · rfl

theorem init : f.init ms = f.init ms' := by
  have : f.initVal ms = f.initVal ms' := by
    funext x v c
    unfold Field.initVal
    split
    · rfl
    · rw [h _ ‹_›]
    · rfl
  funext x v c
  unfold Field.init
  rw [this]

theorem encodeP : f.encodeP ms = f.encodeP ms' := by
  have : f.writeValP ms = f.writeValP ms' := by
    funext x v
    unfold Field.writeValP
    rw [h.writeArr]
    split
    · rfl
    · rw [h _ ‹_›]
    · rfl
  funext x v
  unfold Field.encodeP
  rw [this]

theorem decodeP : f.decodeP ms = f.decodeP ms' := by
  have : f.readValP ms = f.readValP ms' := by
    funext x v c
    unfold Field.readValP
    rw [h.readArr]
    split
    · rfl
    · rw [h _ ‹_›]
    · rfl
  funext x v c
  unfold Field.decodeP
  rw [this, h.zeroVal]

theorem sizeP : f.sizeP ms = f.sizeP ms' := by
  have : f.sizeValP ms = f.sizeValP ms' := by
    funext x v c p
    unfold Field.sizeValP
    split
    · rfl
    · rfl
    · rfl
    · rw [h _ ‹_›]
    · rfl
  funext x v c p
  unfold Field.sizeP
  rw [this]

end Field.Same

section same
variable {fs : List Field} (h : ∀ f ∈ fs, f.Same ms ms')
include h

theorem encLoop_same (env : Env) (vs : List Val) : encLoop ms env fs vs = encLoop ms' env fs vs := by
  induction fs generalizing vs with
  | nil => cases vs <;> rfl
  | cons f fs ih =>
    cases vs with
    | nil => rfl
    | cons v vs => unfold encLoop; rw [(h f List.mem_cons_self).encode, ih fun g hg => h g (List.mem_cons_of_mem _ hg)]

theorem decLoop_same (ps done olds : List Val) : decLoop ms ps done fs olds = decLoop ms' ps done fs olds := by
  induction fs generalizing olds done with
  | nil => cases olds <;> rfl
  | cons f fs ih =>
    cases olds with
    | nil => rfl
    | cons v vs =>
      unfold decLoop
      rw [(h f List.mem_cons_self).decode]
      simp only [ih fun g hg => h g (List.mem_cons_of_mem _ hg)]

theorem sizeLoop_same (env : Env) (vs : List Val) (p : Int) : sizeLoop ms env fs vs p = sizeLoop ms' env fs vs p := by
  induction fs generalizing vs p with
  | nil => cases vs <;> rfl
  | cons f fs ih =>
    cases vs with
    | nil => rfl
    | cons v vs =>
      unfold sizeLoop
      rw [(h f List.mem_cons_self).size]
      simp only [ih fun g hg => h g (List.mem_cons_of_mem _ hg)]

theorem createLoop_same : createLoop ms fs = createLoop ms' fs := by
  induction fs with
  | nil => rfl
  | cons f fs ih => unfold createLoop; rw [(h f List.mem_cons_self).create, ih fun g hg => h g (List.mem_cons_of_mem _ hg)]

theorem initLoop_same (env : Env) (vs : List Val) (cs : List Ctx) : initLoop ms env fs vs cs = initLoop ms' env fs vs cs := by
  induction fs generalizing vs cs with
  | nil => cases vs <;> rfl
  | cons f fs ih =>
    cases vs with
    | nil => rfl
    | cons v vs =>
      cases cs with
      | nil => rfl
      | cons c cs => unfold initLoop; simp only [(h f List.mem_cons_self).init, ih fun g hg => h g (List.mem_cons_of_mem _ hg)]

theorem encLoopP_same (env : Env) (vs : List Val) (cs : List Ctx) : encLoopP ms env fs vs cs = encLoopP ms' env fs vs cs := by
  induction fs generalizing vs cs with
  | nil => cases vs <;> rfl
  | cons f fs ih =>
    cases vs with
    | nil => rfl
    | cons v vs =>
      cases cs with
      | nil => rfl
      | cons c cs => unfold encLoopP; simp only [(h f List.mem_cons_self).encodeP, ih fun g hg => h g (List.mem_cons_of_mem _ hg)]

theorem decLoopP_same (ps done olds : List Val) (cs : List Ctx) : decLoopP ms ps done fs olds cs = decLoopP ms' ps done fs olds cs := by
  induction fs generalizing olds done cs with
  | nil => cases olds <;> rfl
  | cons f fs ih =>
    cases olds with
    | nil => rfl
    | cons v vs =>
      cases cs with
      | nil => rfl
      | cons c cs => unfold decLoopP; simp only [(h f List.mem_cons_self).decodeP, ih fun g hg => h g (List.mem_cons_of_mem _ hg)]

theorem sizeLoopP_same (env : Env) (vs : List Val) (cs : List Ctx) (p : Int) : sizeLoopP ms env fs vs cs p = sizeLoopP ms' env fs vs cs p := by
  induction fs generalizing vs cs p with
  | nil => cases vs <;> rfl
  | cons f fs ih =>
    cases vs with
    | nil => rfl
    | cons v vs =>
      cases cs with
      | nil => rfl
      | cons c cs => unfold sizeLoopP; simp only [(h f List.mem_cons_self).sizeP, ih fun g hg => h g (List.mem_cons_of_mem _ hg)]

theorem encAt_same (i : Nat) (ps vs : List Val) : encAt ms fs i ps vs = encAt ms' fs i ps vs := by
  unfold encAt
  split
  · rename_i f v hf _
    rw [(h f (List.mem_of_getElem? hf)).encode]
  · rfl

theorem decAt_same (i : Nat) (ps vs : List Val) : decAt ms fs i ps vs = decAt ms' fs i ps vs := by
  unfold decAt
  split
  · rename_i f v hf _
    rw [(h f (List.mem_of_getElem? hf)).decode]
  · rfl

theorem sizeAt_same (i : Nat) (ps vs : List Val) (p : Int) : sizeAt ms fs i ps vs p = sizeAt ms' fs i ps vs p := by
  unfold sizeAt
  split
  · rename_i f v hf _
    rw [(h f (List.mem_of_getElem? hf)).size]
  · rfl

theorem zeros_same : fs.map (Field.zero ms) = fs.map (Field.zero ms') := List.map_congr_left fun f hf => (h f hf).zero

end same

/-- Methods of a declaration depend only on the methods of the types of its fields. -/
theorem meth_congr (d : Decl) (h : ∀ f ∈ d.fields, f.Same ms ms') : d.meth ms = d.meth ms' := by
  cases d with
  | enum k => rfl
  | struct fs =>
    show structMeth ms fs = structMeth ms' fs
    dsimp only [Decl.fields] at h
    unfold structMeth
    simp only [encLoop_same h, decLoop_same h, sizeLoop_same h, createLoop_same h, initLoop_same h, encLoopP_same h, decLoopP_same h, sizeLoopP_same h,
      zeros_same h]
  | union fs =>
    show unionMeth ms fs = unionMeth ms' fs
    dsimp only [Decl.fields] at h
    unfold unionMeth
    simp only [encAt_same h, decAt_same h, sizeAt_same h, createLoop_same h, initLoop_same h, zeros_same h]
  | choice sel cases dflt =>
    show choiceMeth ms sel cases dflt = choiceMeth ms' sel cases dflt
    have h : ∀ f ∈ choiceFields cases dflt, f.Same ms ms' := h
    unfold choiceMeth
    simp only [encAt_same h, decAt_same h, sizeAt_same h, createLoop_same h, zeros_same h]
    congr 1
    · funext v c
      split
      · split
        · rfl
        · split
          · split
            · rename_i f _ _ hf _ _
              rw [(h f (List.mem_of_getElem? hf)).init]
            · rfl
          · split
            · rename_i f _
              rw [(h f (by simp [choiceFields])).create]
            · rfl
      · rfl
    · funext v c
      split
      · split
        · rfl
        · split
          · split
            · rename_i f _ _ hf _ _
              rw [(h f (List.mem_of_getElem? hf)).encodeP]
            · rfl
          · rfl
      · rfl
    · funext v c
      split
      · split
        · rfl
        · split
          · split
            · rename_i f _ _ hf _ _
              rw [(h f (List.mem_of_getElem? hf)).decodeP]
            · rfl
          · rfl
      · rfl
    · funext v c p
      split
      · split
        · rfl
        · split
          · split
            · rename_i f _ _ hf _ _
              rw [(h f (List.mem_of_getElem? hf)).sizeP]
            · rfl
          · rfl
      · rfl

end congr

/-- C92, for types that do not contain themselves: every method, also of decoding, is the same whatever the limit and whatever is done
beyond it, as soon as the limit is the depth of the type. -/
theorem C92_methods (schema : Nat → Decl) (b b' : Nat → Meth) :
    ∀ (d name n m : Nat), TypeDepth schema d name → d ≤ n → d ≤ m → methodsFrom b schema n name = methodsFrom b' schema m name := by
  intro d
  induction d with
  | zero => exact fun _ _ _ h => h.elim
  | succ d ih =>
    intro name n m h hn hm
    obtain ⟨n, rfl⟩ : ∃ n', n = n' + 1 := ⟨n - 1, by omega⟩
    obtain ⟨m, rfl⟩ : ∃ m', m = m' + 1 := ⟨m - 1, by omega⟩
    exact meth_congr _ fun f hf k hk => ih k n m (h f hf k hk) (by omega) (by omega)

/-- C92: writing a value and asking for its size makes no calls nested deeper than the value, also for types that contain themselves; the
limit of the model is of no importance for them. -/
theorem C92_encode_partial (schema : Nat → Decl) (D : Nat) (hD : ∀ i, WrittenPacked schema i → ContextDepth schema D i) (b b' : Nat → Meth)
    (name : Nat) (v : Val) (n m : Nat) (hn : v.nesting + D ≤ n) (hm : v.nesting + D ≤ m) :
    (methodsFrom b schema n name).marshal v = (methodsFrom b' schema m name).marshal v ∧
    ∀ p, (methodsFrom b schema n name).bitSize v p = (methodsFrom b' schema m name).bitSize v p := by
  have h := methods_agree schema D hD b b' (v.nesting + D) n m hn hm
  exact ⟨h.marshal name v (Nat.le_refl _), fun p => h.bitSize name v p (Nat.le_refl _)⟩

/-! ## Examples -/

/-- `struct T { uint8 x; optional T next; T list[]; };` -/
def exTree : Nat → Decl := fun _ => .struct [⟨noExprs, 0, false, .prim (.bits 8 8), none, false⟩, ⟨noExprs, 0, true, .comp 0, none, false⟩,
  ⟨noExprs, 0, false, .comp 0, some false, false⟩]

def exLeaf (x : BitVec 8) : Val := .obj 0 [] [.bits 8 x, .none, .list []]

def exGrown : Val := .obj 0 [] [.bits 8 1#8, .some (exLeaf 2#8), .list [exLeaf 3#8, .obj 0 [] [.bits 8 4#8, .some (exLeaf 5#8), .list []]]]

theorem exTree_plain (i : Nat) : ¬ WrittenPacked exTree i := by
  intro h
  induction h with
  | elem hf hp hm =>
    simp [Decl.fields, exTree] at hf
    rcases hf with rfl | rfl | rfl <;> cases hp
  | inner _ _ _ ih => exact ih

/-- The tree is nested four deep; the methods with four or more nested calls write the same, whatever is done beyond. -/
example : exGrown.nesting = 4 ∧
    wrun ((methods exTree 4 0).marshal exGrown) [] = (.ok (), natBits 8 1 ++ [true] ++ natBits 8 2 ++ [false] ++ natBits 8 0 ++ natBits 8 2 ++ natBits 8 3 ++ [false] ++
      natBits 8 0 ++ natBits 8 4 ++ [true] ++ natBits 8 5 ++ [false] ++ natBits 8 0 ++ natBits 8 0) ∧
    ∀ n, 4 ≤ n → (methods exTree n 0).marshal exGrown = (methods exTree 4 0).marshal exGrown := by
  refine ⟨rfl, by decide +kernel, fun n hn => ?_⟩
  rw [methods_from, methods_from]
  exact (C92_encode_partial exTree 0 (fun i h => absurd h (exTree_plain i)) _ _ 0 exGrown n 4 hn (Nat.le_refl 4)).1

/-- `struct P { packed Q list[]; Q q; }` with `struct Q { optional R r; }`, `struct R { uint8 x; }`. -/
def exPacked3 : Nat → Decl
  | 0 => .struct [⟨noExprs, 0, false, .comp 1, some true, false⟩, ⟨noExprs, 0, false, .comp 1, none, false⟩]
  | 1 => .struct [⟨noExprs, 0, true, .comp 2, none, false⟩]
  | _ => .struct [⟨noExprs, 0, false, .prim (.bits 8 8), none, false⟩]

/-- Three nested calls are enough for all methods, also of decoding and with packing. -/
example (b : Nat → Meth) (n : Nat) (hn : 3 ≤ n) : methodsFrom b exPacked3 n 0 = methods exPacked3 3 0 := by
  rw [methods_from]
  refine C92_methods exPacked3 _ _ 3 0 n 3 ?_ hn (Nat.le_refl 3)
  have h2 : TypeDepth exPacked3 1 2 := by
    intro f hf m hm
    simp [Decl.fields, exPacked3] at hf
    subst hf
    cases hm
  have h1 : TypeDepth exPacked3 2 1 := by
    intro f hf m hm
    simp [Decl.fields, exPacked3] at hf
    subst hf
    cases hm
    exact h2
  intro f hf m hm
  simp [Decl.fields, exPacked3] at hf
  rcases hf with rfl | rfl <;> cases hm <;> exact h1

/-- With fewer calls the limit shows. -/
example : (wrun ((methods exTree 2 0).marshal exGrown) []).1 = .error overflow := by decide +kernel

/-- `struct P { packed T list[]; }` with `struct T { optional T next; }`. -/
def exPackedChain : Nat → Decl
  | 0 => .struct [⟨noExprs, 0, true, .comp 0, none, false⟩]
  | _ => .struct [⟨noExprs, 0, false, .comp 0, some true, false⟩]

/-- C92 does not hold for packed arrays of types that contain themselves: a packing context without end is built, so that an array
of a single element without further elements in it cannot be written, however large the stack. -/
theorem C92_violated_packed (n : Nat) :
    (Val.obj 0 [] [.list [.obj 0 [] [.none]]]).nesting = 3 ∧
    (wrun ((methods exPackedChain n 1).marshal (.obj 0 [] [.list [.obj 0 [] [.none]]])) []).1 = .error overflow := by
  refine ⟨rfl, ?_⟩
  have key : ∀ n c, (methods exPackedChain n 0).create c = .error overflow := by
    intro n
    induction n with
    | zero => intro c; rfl
    | succ n ih =>
      intro c
      obtain ⟨d, kids⟩ := c
      show (createLoop (methods exPackedChain n) [⟨noExprs, 0, true, .comp 0, none, false⟩] >>= fun cs => pure (Ctx.node d (kids ++ cs))) = _
      have : createLoop (methods exPackedChain n) [⟨noExprs, 0, true, .comp 0, none, false⟩] = .error overflow := by
        unfold createLoop
        have : Field.create (methods exPackedChain n) ⟨noExprs, 0, true, .comp 0, none, false⟩ = .error overflow := ih _
        rw [this]
        rfl
      rw [this]
      rfl
  cases n with
  | zero => rfl
  | succ n =>
    have h := key n Ctx.empty
    show (wrun (encLoop (methods exPackedChain n) ⟨[], [.list [.obj 0 [] [.none]]]⟩ [⟨noExprs, 0, false, .comp 0, some true, false⟩] [.list [.obj 0 [] [.none]]]) []).1 = _
    have e : ∀ x, Field.encode (methods exPackedChain n) ⟨noExprs, 0, false, .comp 0, some true, false⟩ (noExprs x) (.list [.obj 0 [] [.none]]) =
        (do (pure () : Wr Unit); Arr.header ⟨0, true, true, false, false⟩ 1; throw overflow) := by
      intro x
      unfold Field.encode Field.writeVal Field.writeArr ObjArr.marshal ObjArr.packed
      dsimp only
      rw [h]
      rfl
    have hh : wrun (Arr.header ⟨0, true, true, false, false⟩ 1) [] = (.ok (), natBits 8 1) := by decide +kernel
    unfold encLoop
    dsimp only
    rw [e, wrun_bind, wrun_bind, hh]
    rfl

end Verif
