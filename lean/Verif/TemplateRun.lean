import Verif.TemplateLaws

/-!
# A run of template instantiation keeps the invariant
-/

namespace Verif

section run
variable {strict : Bool} {W : TSchema} {imports : String → List String} {P : TPlan W imports} {s0 : TSt}
  {D : String → Text → Prop}

theorem Run.register {tot : Bool} {s : TSt} {k : TKind} {p : String} {name : Text} {d : TDecl} {Q : Unit → TSt → Prop}
    (h : Q () { s with
      kinds := Function.update s.kinds p (Function.update (s.kinds p) name (some k))
      decls := Function.update s.decls k (Function.update (s.decls k) p (Function.update (s.decls k p) name (some d))) }) :
    Run tot (Verif.register k p name d) s Q := h

/-- A part of the source: its reference and what it was read from. -/
def PartSrc (h : List TCell) (x : TPart) (y : Text × TPtr) : Prop :=
  x.name = y.1 ∧ Spells h y.2 x.ty ∧ ∃ c : TCell, h[y.2]? = some c ∧ c.tyargs = x.tyargs

/-- Handing on arguments. -/
theorem passArgs_ok {tot : Bool} {av : List TPtr} {p : String} {s : TSt} {orig : Origins} {ps : List Text}
    {tt : Text → Option TPtr} {σ : Text → Option Ty} (hi : TInv strict P s0 D av s orig)
    (htt : TTOk strict av p s.heap orig ps tt σ) : ∀ {targs : List TPtr} {ts : List Ty}, SpellsArgs s0.heap targs ts →
    (∀ a ∈ ts, (a.name ∈ ps → a.isParam a.name) ∧ (a.name ∉ ps → a.mentions ps = false)) →
    Run tot (passArgs tt targs) s fun rs s' => s' = s ∧
      List.Forall₂ (ARep strict s0 av p s.heap orig) rs (ts.map (Ty.subst σ))
  | _, _, .nil, _ => Run.pure ⟨rfl, .nil⟩
  | _, _, .cons (r := ta) (rs := tas) (t := t) (ts := ts) (c := c0) h0 he hd hds, hf => by
    unfold passArgs
    obtain ⟨c, hc, f1, f2, f3, f4, f5, f6⟩ := hi.heap ta c0 h0
    obtain ⟨c0', hc0', e1, e2, e3, e4, hargs⟩ := hd.inv
    rw [h0] at hc0'
    cases hc0'
    refine Run.bind (Run.cell hc (Run.bind ((passArgs_ok hi htt hds fun a ha => hf a (by simp [ha])).mono ?_)))
    rintro rs s' ⟨rfl, hrs⟩
    refine Run.pure ⟨rfl, .cons ?_ hrs⟩
    have hname : c.name = t.name := f3.trans e3
    rw [hname]
    by_cases hm : t.name ∈ ps
    · obtain ⟨r, t', h1, h2, h3⟩ := (htt t.name).2 hm
      rw [h1]
      have hp := (hf t (by simp)).1 hm
      have : t.subst σ = t' := by
        rw [t.eta, hp.1, hp.2.1, hp.2.2.2]
        simp [Ty.subst, h2]
      rw [this]
      exact .inr h3
    · rw [((htt t.name).1 hm).1]
      rw [Ty.subst_closed σ ps (fun n hn => ((htt n).1 hn).2) t ((hf t (by simp)).2 hm)]
      exact .inl ⟨hd, c0, h0, he⟩

/-- One field of an instance. -/
theorem instField_ok {tot : Bool} {A : Ty → Prop} {p : String} {inst : Inst} (hok : InstOk strict P s0 D tot A p inst)
    {av : List TPtr} {s : TSt} {orig : Origins} {ps : List Text} {tt : Text → Option TPtr} {σ : Text → Option Ty}
    (hi : TInv strict P s0 D av s orig) (htt : TTOk strict av p s.heap orig ps tt σ) {x : TPart} {y : Text × TPtr}
    (hxy : PartSrc s0.heap x y)
    (hu : x.ty.args ≠ [] → P.U p (x.ty.subst σ) ∧ A (x.ty.subst σ))
    (hflat : ∀ a ∈ x.ty.args, (a.name ∈ ps → a.isParam a.name) ∧ (a.name ∉ ps → a.mentions ps = false))
    (hb : x.ty.builtin = true → x.ty.name ∉ ps)
    (hbare : strict = true → x.ty.name ∈ ps → x.ty.isParam x.ty.name → x.tyargs = []) :
    Run tot (instField inst tt y) s fun z s' => ∃ orig', HLe strict s.heap s'.heap ∧ OLe orig orig' ∧
      TInv strict P s0 D av s' orig' ∧ FPart strict av p s'.heap orig' (Ty.subst σ) x z := by
  obtain ⟨hname, hd, c0, h0, he⟩ := hxy
  obtain ⟨c, hc, f1, f2, f3, f4, f5, f6⟩ := hi.heap _ c0 h0
  obtain ⟨c0', hc0', e1, e2, e3, e4, hargs⟩ := hd.inv
  rw [h0] at hc0'
  cases hc0'
  unfold instField
  refine Run.bind (Run.cell hc ?_)
  by_cases ha : x.ty.args = []
  · have hta : c.targs = [] := by rw [f5]; exact hargs.nil_iff.2 ha
    have hx : x.ty = .mk c.builtin c.pkg c.name c.bits [] := by
      rw [f1, f2, f3, f4, e1, e2, e3, e4, ← ha]; exact x.ty.eta
    have hkeep : x.ty.subst σ = x.ty → Run tot (pure y : TM (Text × TPtr)) s fun z s' => ∃ orig', HLe strict s.heap s'.heap ∧
        OLe orig orig' ∧ TInv strict P s0 D av s' orig' ∧ FPart strict av p s'.heap orig' (Ty.subst σ) x z := fun hs =>
      Run.pure ⟨orig, HLe.refl, OLe.refl, hi, hname, ⟨hi.notin h0, c, hc, hta, .inl (hs.trans hx)⟩,
        fun hst => ⟨c, hc, (f6 hst).trans he⟩⟩
    rw [if_neg (by simp [hta])]
    have hcn : c.name = x.ty.name := f3.trans e3
    by_cases hm : x.ty.name ∈ ps
    · obtain ⟨r, t', h1, h2, h3⟩ := (htt x.ty.name).2 hm
      rw [← hcn] at h1 h2
      simp only [h1]
      by_cases hp : c.pkg = ""
      · rw [if_pos hp]
        have hbf : c.builtin = false := by
          cases hcb : c.builtin with
          | false => rfl
          | true => exact absurd hm (hb (by rw [← e1, ← f1, hcb]))
        have hsub : x.ty.subst σ = t' := by rw [hx]; simp [Ty.subst, hbf, hp, h2]
        have hpar : x.ty.isParam x.ty.name := ⟨by rw [← e1, ← f1, hbf], by rw [← e2, ← f2, hp], rfl, ha⟩
        have hle : HLe strict s.heap (s.heap.modify r fun d => { d with tyargs := c.tyargs }) := by
          intro r' d hd'
          refine ⟨if r' = r then { d with tyargs := c.tyargs } else d, by rw [heap_modify, hd']; rfl, ?_⟩
          by_cases hr : r' = r
          · rw [if_pos hr]
            refine ⟨rfl, rfl, rfl, rfl, rfl, fun hst => ?_⟩
            obtain ⟨c1, hc1, hc1e⟩ := h3.2 hst
            rw [hr, hc1] at hd'
            cases hd'
            show c.tyargs = _
            rw [hc1e, f6 hst, he, hbare hst hm hpar]
          · rw [if_neg hr]
            exact ⟨rfl, rfl, rfl, rfl, rfl, fun _ => rfl⟩
        refine Run.bind (Run.setTyargs (Run.pure ⟨orig, hle, OLe.refl, hi.grow _ hle (by simp), hname, ?_, fun hst => ?_⟩))
        · rw [hsub]
          exact h3.1.mono hle OLe.refl
        · obtain ⟨c1, hc1, hc1e⟩ := h3.2 hst
          obtain ⟨c2, hc2, -, -, -, -, -, g6⟩ := hle r c1 hc1
          exact ⟨c2, hc2, by rw [g6 hst, hc1e, hbare hst hm hpar]⟩
      · rw [if_neg hp]
        exact hkeep (by rw [hx]; simp [Ty.subst, hp])
    · have h1 := ((htt x.ty.name).1 hm).1
      have h2 := ((htt x.ty.name).1 hm).2
      rw [← hcn] at h1 h2
      simp only [h1]
      exact hkeep (by rw [hx]; simp [Ty.subst, h2])
  · have hta : c.targs ≠ [] := by rw [f5]; exact fun h => ha (hargs.nil_iff.1 h)
    rw [if_pos hta]
    rw [f5]
    refine Run.bind ((passArgs_ok hi htt hargs hflat).mono ?_)
    rintro rs s' ⟨rfl, hrs⟩
    obtain ⟨u1, u2⟩ := hu ha
    have hsub := Ty.subst_args σ x.ty ha
    have hn : c.name = (x.ty.subst σ).name := by rw [hsub]; exact f3.trans e3
    have hrs' : List.Forall₂ (ARep strict s0 av p s'.heap orig) rs (x.ty.subst σ).args := by rw [hsub]; exact hrs
    refine Run.bind ((hok hi u1 u2 hc hn hrs' (by simp)).mono ?_)
    rintro r s'' ⟨orig', a1, a2, a3, a4, a5, -⟩
    refine Run.pure ⟨orig', a1, a2, a3, hname, a4, fun hst => ?_⟩
    obtain ⟨c1, hc1, e5⟩ := a5 hst
    exact ⟨c1, hc1, by rw [e5, f6 hst, he]⟩

/-- The fields of an instance. -/
theorem instFields_ok {tot : Bool} {A : Ty → Prop} {p : String} {inst : Inst} (hok : InstOk strict P s0 D tot A p inst)
    {av : List TPtr} {ps : List Text} {tt : Text → Option TPtr} {σ : Text → Option Ty} :
    ∀ {xs : List TPart} {ys : List (Text × TPtr)} {s : TSt} {orig : Origins}, TInv strict P s0 D av s orig →
    TTOk strict av p s.heap orig ps tt σ → List.Forall₂ (PartSrc s0.heap) xs ys →
    (∀ x ∈ xs, (x.ty.args ≠ [] → P.U p (x.ty.subst σ) ∧ A (x.ty.subst σ)) ∧
      (∀ a ∈ x.ty.args, (a.name ∈ ps → a.isParam a.name) ∧ (a.name ∉ ps → a.mentions ps = false)) ∧
      (x.ty.builtin = true → x.ty.name ∉ ps) ∧
      (strict = true → x.ty.name ∈ ps → x.ty.isParam x.ty.name → x.tyargs = [])) →
    Run tot (instFields inst tt ys) s fun zs s' => ∃ orig', HLe strict s.heap s'.heap ∧ OLe orig orig' ∧
      TInv strict P s0 D av s' orig' ∧ FParts strict av p s'.heap orig' (Ty.subst σ) xs zs
  | _, _, s, orig, hi, _, .nil, _ => Run.pure ⟨orig, HLe.refl, OLe.refl, hi, .nil⟩
  | _, _, s, orig, hi, htt, .cons (a := x) (b := y) hxy hrest, hall => by
    unfold instFields
    obtain ⟨h1, h2, h3, h4⟩ := hall x (by simp)
    refine Run.bind ((instField_ok hok hi htt hxy h1 h2 h3 h4).mono ?_)
    rintro z s1 ⟨orig1, a1, a2, a3, a4⟩
    refine Run.bind ((instFields_ok hok a3 (htt.mono a1 a2) hrest fun x hx => hall x (by simp [hx])).mono ?_)
    rintro zs s2 ⟨orig2, b1, b2, b3, b4⟩
    exact Run.pure ⟨orig2, a1.trans b1, a2.trans b2, b3, .cons (a4.mono b1 b2) b4⟩

/-- Parameters and function results of an instance. -/
theorem instParts_ok {tot : Bool} {p : String} {av : List TPtr} {ps : List Text} {tt : Text → Option TPtr}
    {σ : Text → Option Ty} {s : TSt} {orig : Origins} (hi : TInv strict P s0 D av s orig)
    (htt : TTOk strict av p s.heap orig ps tt σ) :
    ∀ {xs : List TPart} {ys : List (Text × TPtr)}, List.Forall₂ (PartSrc s0.heap) xs ys →
    (∀ x ∈ xs, x.ty.args = [] ∧ (x.ty.builtin = true → x.ty.name ∉ ps) ∧
      (strict = true → x.ty.name ∈ ps → x.ty.isParam x.ty.name → x.tyargs = [])) →
    Run tot (instParts tt ys) s fun zs s' => s' = s ∧ FParts strict av p s.heap orig (Ty.subst σ) xs zs
  | _, _, .nil, _ => Run.pure ⟨rfl, .nil⟩
  | _, _, .cons (a := x) (b := y) hxy hrest, hall => by
    unfold instParts
    obtain ⟨ha, hb, hbare⟩ := hall x (by simp)
    obtain ⟨hname, hd, c0, h0, he⟩ := hxy
    obtain ⟨c, hc, f1, f2, f3, f4, f5, f6⟩ := hi.heap _ c0 h0
    obtain ⟨c0', hc0', e1, e2, e3, e4, hargs⟩ := hd.inv
    rw [h0] at hc0'
    cases hc0'
    refine Run.bind (Run.cell hc (Run.bind ((instParts_ok hi htt hrest fun x hx => hall x (by simp [hx])).mono ?_)))
    rintro zs s' ⟨rfl, hzs⟩
    have hta : c.targs = [] := by rw [f5]; exact hargs.nil_iff.2 ha
    have hx : x.ty = .mk c.builtin c.pkg c.name c.bits [] := by
      rw [f1, f2, f3, f4, e1, e2, e3, e4, ← ha]; exact x.ty.eta
    have hkeep : x.ty.subst σ = x.ty → FPart strict av p s'.heap orig (Ty.subst σ) x y := fun hs =>
      ⟨hname, ⟨hi.notin h0, c, hc, hta, .inl (hs.trans hx)⟩, fun hst => ⟨c, hc, (f6 hst).trans he⟩⟩
    have hcn : c.name = x.ty.name := f3.trans e3
    by_cases hm : x.ty.name ∈ ps
    · obtain ⟨r, t', h1, h2, h3⟩ := (htt x.ty.name).2 hm
      rw [← hcn] at h1 h2
      simp only [h1]
      by_cases hp : c.pkg = ""
      · rw [if_pos hp]
        have hbf : c.builtin = false := by
          cases hcb : c.builtin with
          | false => rfl
          | true => exact absurd hm (hb (by rw [← e1, ← f1, hcb]))
        have hsub : x.ty.subst σ = t' := by rw [hx]; simp [Ty.subst, hbf, hp, h2]
        have hpar : x.ty.isParam x.ty.name := ⟨by rw [← e1, ← f1, hbf], by rw [← e2, ← f2, hp], rfl, ha⟩
        refine Run.pure ⟨rfl, .cons ⟨hname, by rw [hsub]; exact h3.1, fun hst => ?_⟩ hzs⟩
        obtain ⟨c1, hc1, hc1e⟩ := h3.2 hst
        exact ⟨c1, hc1, by rw [hc1e, hbare hst hm hpar]⟩
      · rw [if_neg hp]
        exact Run.pure ⟨rfl, .cons (hkeep (by rw [hx]; simp [Ty.subst, hp])) hzs⟩
    · have h1 := ((htt x.ty.name).1 hm).1
      have h2 := ((htt x.ty.name).1 hm).2
      rw [← hcn] at h1 h2
      simp only [h1]
      exact Run.pure ⟨rfl, .cons (hkeep (by rw [hx]; simp [Ty.subst, h2])) hzs⟩

theorem cellNames_ok {tot : Bool} {p : String} {av : List TPtr} {s : TSt} {orig : Origins} (hi : TInv strict P s0 D av s orig) :
    ∀ {targs : List TPtr} {ts : List Ty}, List.Forall₂ (ARep strict s0 av p s.heap orig) targs ts →
    Run tot (cellNames targs) s fun ns s' => s' = s ∧ List.Forall₂ (fun a n => n = Ty.name a ∨ P.Nm p a n) ts ns
  | _, _, .nil => Run.pure ⟨rfl, .nil⟩
  | _, _, .cons (a := ta) (b := t) hta htas => by
    unfold cellNames
    have key : ∃ c : TCell, s.heap[ta]? = some c ∧ (c.name = t.name ∨ P.Nm p t c.name) := by
      rcases hta with ⟨hd, c0, h0, he⟩ | hf
      · obtain ⟨c, hc, f1, f2, f3, f4, f5, f6⟩ := hi.heap ta c0 h0
        obtain ⟨c0', hc0', e1, e2, e3, e4, hargs⟩ := hd.inv
        rw [h0] at hc0'
        cases hc0'
        exact ⟨c, hc, .inl (f3.trans e3)⟩
      · obtain ⟨c, hc, hta, hk⟩ := hf.1.2
        refine ⟨c, hc, ?_⟩
        rcases hk with rfl | ⟨-, -, -, h4⟩
        · exact .inl rfl
        · exact .inr (hi.made h4).2.1
    obtain ⟨c, hc, hk⟩ := key
    refine Run.bind (Run.cell hc (Run.bind ((cellNames_ok hi htas).mono ?_)))
    rintro ns s' ⟨rfl, hns⟩
    exact Run.pure ⟨rfl, .cons hk hns⟩

/-- The template is found. -/
theorem TInv.find {av : List TPtr} {s : TSt} {orig : Origins} (hi : TInv strict P s0 D av s orig) {p : String} {t : Ty}
    {d : SDecl} (hu : P.U p t) (hd : W t.pkg t.name = some d) (hk : d.kind = .struct ∨ d.kind = .choice) :
    ∀ ps, seenIn W t.name ps = some t.pkg → findKind s t.name ps = some (d.kind, t.pkg)
  | [], h => by cases h
  | q :: ps, h => by
    unfold seenIn at h
    unfold findKind
    by_cases hq : (W q t.name).isSome = true
    · rw [if_pos hq] at h
      cases h
      rcases hi.kinds hd with h | ⟨h, -⟩
      · rw [h]
      · rcases hk with e | e <;> rw [e] at h <;> cases h
    · rw [if_neg hq] at h
      have : s.kinds q t.name = none := by
        cases hs : s.kinds q t.name with
        | none => rfl
        | some k =>
          rcases hi.kindsOnly hs with ⟨d', h'⟩ | h'
          · rw [h'] at hq; simp at hq
          · obtain ⟨t', ht'⟩ := Option.isSome_iff_exists.1 h'
            have := hi.made ht'
            exact absurd rfl (P.hide this.1 this.2.1 hu)
      rw [this]
      exact hi.find hu hd hk ps h

variable (P) in
/-- The measure is below `n` if the run has to return. -/
def Below (tot : Bool) (ρ : String → Ty → Nat) (p : String) (n : Nat) (t : Ty) : Prop := tot = true → ρ p t < n

theorem instType_nop (p : String) (n : Nat) : InstNop (instType imports p n) := by
  intro tr nm
  cases n <;> rfl

/-- Instantiating a template in package `p`. -/
theorem instType_ok {tot : Bool} {ρ : String → Ty → Nat} (hr : tot = true → P.Ranked ρ) (hbare : strict = true → P.Bare)
    (hp0 : Parsed W s0) (p : String) : ∀ n, InstOk strict P s0 D tot (Below tot ρ p n) p (instType imports p n) := by
  intro n
  induction n with
  | zero =>
    intro av s orig tr targs nm t c hi hu hA hc hn hargs hnm
    obtain ⟨ha, -⟩ := P.decl hu
    cases targs with
    | nil => cases ht : t.args with
      | nil => exact absurd ht ha
      | cons a as => rw [ht] at hargs; cases hargs
    | cons ta tas =>
      show Run tot (fun _ => none) s _
      unfold Run
      cases htot : tot with
      | false => rfl
      | true => exact absurd (hA htot) (Nat.not_lt_zero _)
  | succ n ih =>
    intro av s orig tr targs nm t c hi hu hA hc hn hargs hnm
    obtain ⟨ha, d, hd, hk, hlen, hnd⟩ := P.decl hu
    cases targs with
    | nil => cases ht : t.args with
      | nil => exact absurd ht ha
      | cons a as => rw [ht] at hargs; cases hargs
    | cons ta tas =>
    unfold instType
    refine Run.bind (Run.cell hc (Run.bind ((cellNames_ok hi hargs).mono ?_)))
    rintro ns s' ⟨rfl, hns⟩
    refine Run.bind (Run.get ?_)
    have hf := hi.find hu hd hk (p :: imports p) (P.seen hu)
    rw [hn, hf]
    have htp : d.tparams ≠ [] := fun h => by
      rw [h] at hlen
      exact ha (List.length_eq_zero_iff.1 hlen.symm)
    obtain ⟨e, he, het, hef, hep, hefn⟩ := hp0.parts _ _ _ hd
    have hde := (hi.tmpl hd htp).trans he
    simp only [if_pos hk, hde]
    -- the name
    have hN : P.Nm p t (nm.getD (genName t.name ns)) := by
      cases nm with
      | none => exact P.names hu hns
      | some N => exact hnm N rfl
    have hNe : ∀ N, nm = some N → nm.getD (genName t.name ns) = N := by
      rintro N rfl
      rfl
    generalize nm.getD (genName t.name ns) = N at hN hNe
    -- the compound
    refine Run.bind (?_ : Run tot (instCompound (instType imports p n) d.kind p e (ta :: tas) N) s' fun r s'' =>
      Run tot (do setTyargs r c.tyargs; pure r) s'' (InstPost strict P s0 D av p s' orig c.tyargs nm t))
    unfold instCompound
    have hl : e.tparams.length = (ta :: tas).length := by rw [het, hlen]; exact hargs.length_eq.symm
    rw [if_neg (by simp only [hl, ne_eq, not_true_eq_false, not_false_eq_true])]
    refine Run.bind ((instArgs_ok ih (instType_nop p n) hi hargs fun a ham haa =>
      ⟨P.args hu ham haa, fun ht => Nat.lt_of_lt_of_le ((hr ht).args hu ham haa) (Nat.le_of_lt_succ (hA ht))⟩).mono ?_)
    rintro rs s1 ⟨orig1, a1, a2, hi1, hrs⟩
    refine Run.bind (Run.alloc (Run.bind (Run.get ?_)))
    have hi2 := hi1.alloc ⟨false, p, N, 0, [], []⟩
    have hle2 : HLe strict s1.heap (s1.heap ++ [⟨false, p, N, 0, [], []⟩]) := HLe.append _
    -- what remains to do after the compound is registered as `orig3`
    have last : ∀ (s3 : TSt) (orig3 : Origins),
        HLe strict (s1.heap ++ [⟨false, p, N, 0, [], []⟩]) s3.heap → OLe orig1 orig3 →
        TInv strict P s0 D (s1.heap.length :: av) s3 orig3 → orig3 p N = some t →
        Run tot (do setTyargs s1.heap.length c.tyargs; pure s1.heap.length) s3
          (InstPost strict P s0 D av p s' orig c.tyargs nm t) := by
      intro s3 orig3 hle3 ho3 hi3 hot
      refine Run.bind (Run.setTyargs (Run.pure ⟨orig3, ?_, a2.trans ho3, hi3.finish c.tyargs, ?_, ?_,
        fun N' hN' _ => hNe N' hN' ▸ hot⟩))
      · intro r0 c1 hc1
        have hlt : r0 < s1.heap.length := by
          obtain ⟨c2, hc2, -⟩ := a1 r0 c1 hc1
          exact (List.getElem?_eq_some_iff.1 hc2).1
        obtain ⟨c2, hc2, hk2⟩ := (a1.trans (hle2.trans hle3)) r0 c1 hc1
        refine ⟨c2, ?_, hk2⟩
        show (s3.heap.modify _ _)[r0]? = _
        rw [heap_modify, hc2]
        simp [Nat.ne_of_lt hlt]
      · have hnew : (s1.heap ++ [(⟨false, p, N, 0, [], []⟩ : TCell)])[s1.heap.length]? = some ⟨false, p, N, 0, [], []⟩ := by
          simp
        obtain ⟨c2, hc2, g1, g2, g3, g4, g5, -⟩ := hle3 _ _ hnew
        refine ⟨fun hav => ?_, { c2 with tyargs := c.tyargs }, ?_, g5, .inr ⟨g1, g2, ha, ?_⟩⟩
        · exact absurd (hi1.avhi _ hav) (Nat.lt_irrefl _)
        · show (s3.heap.modify _ _)[s1.heap.length]? = _
          rw [heap_modify, hc2]
          simp
        · rw [show ({ c2 with tyargs := c.tyargs } : TCell).name = N from g3]
          exact hot
      · intro hst
        have hnew : (s1.heap ++ [(⟨false, p, N, 0, [], []⟩ : TCell)])[s1.heap.length]? = some ⟨false, p, N, 0, [], []⟩ := by
          simp
        obtain ⟨c2, hc2, -⟩ := hle3 _ _ hnew
        refine ⟨{ c2 with tyargs := c.tyargs }, ?_, rfl⟩
        show (s3.heap.modify _ _)[s1.heap.length]? = _
        rw [heap_modify, hc2]
        simp
    by_cases hex : (s1.decls d.kind p N).isSome = true
    · rw [if_pos hex]
      refine Run.pure (last _ orig1 HLe.refl OLe.refl hi2 ?_)
      obtain ⟨e', he'⟩ := Option.isSome_iff_exists.1 hex
      rcases hi1.declsOnly he' with ⟨d', hd', hkk⟩ | h'
      · have := (P.avoid hu hN hd').1
        rw [this] at hkk
        rcases hk with h | h <;> rw [h] at hkk <;> cases hkk
      · obtain ⟨t', -, ht', -⟩ := h'
        have hm := hi1.made ht'
        rw [ht', P.inj hu hm.1 hN hm.2.1]
    · rw [if_neg hex]
      have htt1 : TTOk strict av p s1.heap orig1 d.tparams (templateTypes e.tparams rs) (d.sigma t.args) := by
        intro nme
        rw [het]
        exact templateTypes_ok d.tparams rs t.args _ hnd hlen hrs nme
      have htt2 : TTOk strict (s1.heap.length :: av) p (s1.heap ++ [⟨false, p, N, 0, [], []⟩]) orig1 d.tparams
          (templateTypes e.tparams rs) (d.sigma t.args) := by
        intro nme
        refine ⟨(htt1 nme).1, fun hm => ?_⟩
        obtain ⟨r1, t1, h1, h2, h3⟩ := (htt1 nme).2 hm
        refine ⟨r1, t1, h1, h2, (h3.1.avoid (Nat.le_refl _)).mono hle2 OLe.refl, fun hst => ?_⟩
        obtain ⟨c1, hc1, hc1e⟩ := h3.2 hst
        obtain ⟨c2, hc2, -, -, -, -, -, g6⟩ := hle2 _ _ hc1
        exact ⟨c2, hc2, (g6 hst).trans hc1e⟩
      refine Run.bind ((instFields_ok ih hi2 htt2 hef fun x hx => ⟨fun hxa => ⟨P.fields hu hd hx hxa, fun ht =>
        Nat.lt_of_lt_of_le ((hr ht).fields hu hd hx hxa) (Nat.le_of_lt_succ (hA ht))⟩, fun a ham => P.flat hu hd hx ham,
        P.builtin hu hd (.inl hx), fun hst => hbare hst hu hd (.inl hx)⟩).mono ?_)
      rintro fields s2 ⟨orig2, b1, b2, hi3, hfields⟩
      have htt3 := htt2.mono b1 b2
      refine Run.bind ((instParts_ok hi3 htt3 hep fun x hx => ⟨P.simple hd (.inl hx), P.builtin hu hd (.inr (.inl hx)),
        fun hst => hbare hst hu hd (.inr (.inl hx))⟩).mono ?_)
      rintro params _ ⟨rfl, hparams⟩
      refine Run.bind ((instParts_ok hi3 htt3 hefn fun x hx => ⟨P.simple hd (.inr hx), P.builtin hu hd (.inr (.inr hx)),
        fun hst => hbare hst hu hd (.inr (.inr hx))⟩).mono ?_)
      rintro funcs s2 ⟨rfl, hfuncs⟩
      obtain ⟨ho3, hi4⟩ := hi3.register (e := ⟨[], fields, params, funcs⟩) hu hN hd rfl hfields hparams hfuncs
      refine Run.bind (Run.register ?_)
      refine Run.pure (last _ _ b1 (b2.trans ho3) hi4 ?_)
      rw [upd2]
      simp

/-! ## Visits -/

/-- A part whose type has no template arguments stands for itself. -/
theorem parts_id {s : TSt} {orig : Origins} (hi : TInv strict P s0 D [] s orig) (p : String) :
    ∀ {xs : List TPart} {ys : List (Text × TPtr)}, List.Forall₂ (PartSrc s0.heap) xs ys → (∀ x ∈ xs, x.ty.args = []) →
    FParts strict [] p s.heap orig (fun t => t) xs ys
  | _, _, .nil, _ => .nil
  | _, _, .cons (a := x) (b := y) hxy hrest, hall => by
    refine .cons ?_ (parts_id hi p hrest fun x hx => hall x (by simp [hx]))
    obtain ⟨hname, hd, c0, h0, he⟩ := hxy
    obtain ⟨c, hc, f1, f2, f3, f4, f5, f6⟩ := hi.heap _ c0 h0
    obtain ⟨c0', hc0', e1, e2, e3, e4, hargs⟩ := hd.inv
    rw [h0] at hc0'
    cases hc0'
    have ha := hall x (by simp)
    refine ⟨hname, ⟨hi.notin h0, c, hc, by rw [f5]; exact hargs.nil_iff.2 ha, .inl ?_⟩, fun hst => ⟨c, hc, (f6 hst).trans he⟩⟩
    rw [f1, f2, f3, f4, e1, e2, e3, e4, ← ha]; exact x.ty.eta

/-- The fields of a declaration of the source. -/
theorem visitFields_ok {tot : Bool} {A : Ty → Prop} {p : String} {inst : Inst} (hok : InstOk strict P s0 D tot A p inst)
    (hnop : InstNop inst) {nm : Option Text} : ∀ {xs : List TPart} {ys : List (Text × TPtr)} {s : TSt} {orig : Origins},
    TInv strict P s0 D [] s orig → List.Forall₂ (PartSrc s0.heap) xs ys →
    (∀ x ∈ xs, x.ty.args ≠ [] → P.U p x.ty ∧ A x.ty ∧ ∀ n, nm = some n → P.Nm p x.ty n) →
    Run tot (visitFields inst nm ys) s fun zs s' => ∃ orig', HLe strict s.heap s'.heap ∧ OLe orig orig' ∧
      TInv strict P s0 D [] s' orig' ∧ FParts strict [] p s'.heap orig' (fun t => t) xs zs ∧
      ∀ n, nm = some n → ∀ x ∈ xs, x.ty.args ≠ [] → orig' p n = some x.ty
  | _, _, s, orig, hi, .nil, _ => Run.pure ⟨orig, HLe.refl, OLe.refl, hi, .nil, by simp⟩
  | _, _, s, orig, hi, .cons (a := x) (b := y) hxy hrest, hall => by
    unfold visitFields
    obtain ⟨hname, hd, c0, h0, he⟩ := hxy
    obtain ⟨c, hc, f1, f2, f3, f4, f5, f6⟩ := hi.heap _ c0 h0
    refine Run.bind (Run.cell hc (Run.bind ((inst_source hok hnop hi h0 hd hc (hall x (by simp))).mono ?_)))
    rintro r s1 ⟨orig1, a1, a2, a3, a4, a5, a6⟩
    refine Run.bind ((visitFields_ok hok hnop a3 hrest fun x hx => hall x (by simp [hx])).mono ?_)
    rintro zs s2 ⟨orig2, b1, b2, b3, b4, b5⟩
    have hp : FPart strict [] p s1.heap orig1 (fun t => t) x (y.1, r) := ⟨hname, a4, fun hst => by rw [← he]; exact a5 hst⟩
    refine Run.pure ⟨orig2, a1.trans b1, a2.trans b2, b3, .cons (hp.mono b1 b2) b4, fun n hn x' hx' ha => ?_⟩
    rcases List.mem_cons.1 hx' with rfl | hx'
    · exact b2 _ _ _ (a6 n hn ha)
    · exact b5 n hn x' hx' ha

/-- Fields that are instantiated already stay. -/
theorem visitFields_nop {tot : Bool} {p : String} {inst : Inst} (hnop : InstNop inst) {nm : Option Text} {s : TSt}
    {orig : Origins} {f : Ty → Ty} : ∀ {xs : List TPart} {ys : List (Text × TPtr)}, FParts strict [] p s.heap orig f xs ys →
    Run tot (visitFields inst nm ys) s fun zs s' => s' = s ∧ zs = ys
  | _, _, .nil => Run.pure ⟨rfl, rfl⟩
  | _, _, .cons (a := x) (b := y) hxy hrest => by
    unfold visitFields
    obtain ⟨-, ⟨-, c, hc, hta, -⟩, -⟩ := hxy
    refine Run.bind (Run.cell hc ?_)
    rw [hta, hnop]
    refine Run.bind (Run.pure (Run.bind ((visitFields_nop hnop hrest).mono ?_)))
    rintro zs s' ⟨rfl, rfl⟩
    exact Run.pure ⟨rfl, rfl⟩

/-- Nothing new is claimed. -/
theorem TInv.more {av : List TPtr} {s : TSt} {orig : Origins} {D' : String → Text → Prop} (hi : TInv strict P s0 D av s orig)
    (h : ∀ p n d, W p n = some d → d.tparams = [] → D' p n → D p n) : TInv strict P s0 D' av s orig :=
  { hi with
    plain := fun hd ht => by
      obtain ⟨e0, e, a1, a2, a3, a4, a5, a6⟩ := hi.plain hd ht
      exact ⟨e0, e, a1, a2, a3, a4, a5, a6.imp (And.imp (fun hn hd' => hn (h _ _ _ hd ht hd')) id) id⟩ }

/-- `(p, n)` is a declaration of kind `k`. -/
def Visited (W : TSchema) (k : TKind) (p : String) (n : Text) (p' : String) (n' : Text) : Prop :=
  p' = p ∧ n' = n ∧ ∃ d, W p n = some d ∧ d.kind = k

/-- The fields of a declaration of the source are replaced. -/
theorem TInv.setFields {s : TSt} {orig : Origins} (hi : TInv strict P s0 D [] s orig) {p : String} {n : Text} {d : SDecl}
    {e : TDecl} {fs : List (Text × TPtr)} (hd : W p n = some d) (ht : d.tparams = []) (he : s.decls d.kind p n = some e)
    (hf : FParts strict [] p s.heap orig (fun t => t) d.fields fs)
    (hn : d.kind = .inst → ∀ x ∈ d.fields, x.ty.args ≠ [] → orig p n = some x.ty) :
    TInv strict P s0 (fun p' n' => D p' n' ∨ Visited W d.kind p n p' n') [] { s with
      decls := Function.update s.decls d.kind (Function.update (s.decls d.kind) p
        (Function.update (s.decls d.kind p) n (some { e with fields := fs }))) } orig := by
  have hdu : ∀ k' p' n', Function.update s.decls d.kind (Function.update (s.decls d.kind) p
        (Function.update (s.decls d.kind p) n (some { e with fields := fs }))) k' p' n' =
      if k' = d.kind ∧ p' = p ∧ n' = n then some { e with fields := fs } else s.decls k' p' n' :=
    fun k' p' n' => upd3 _ _ _ _ _ _ _ _
  exact {
    heap := hi.heap
    avlo := hi.avlo
    avhi := hi.avhi
    kinds := hi.kinds
    kindsOnly := hi.kindsOnly
    declsOnly := by
      intro k' p' n' e' h
      have h : Function.update s.decls d.kind _ k' p' n' = some e' := h
      rw [hdu] at h
      by_cases hc : k' = d.kind ∧ p' = p ∧ n' = n
      · obtain ⟨rfl, rfl, rfl⟩ := hc
        exact .inl ⟨d, hd, rfl⟩
      · rw [if_neg hc] at h
        exact hi.declsOnly h
    tmpl := by
      intro p' n' d' hd' ht'
      show Function.update s.decls d.kind _ d'.kind p' n' = _
      rw [hdu, if_neg]
      · exact hi.tmpl hd' ht'
      · rintro ⟨-, rfl, rfl⟩
        rw [hd] at hd'
        cases hd'
        exact ht' ht
    plain := by
      intro p' n' d' hd' ht'
      obtain ⟨e0, e', a1, a2, a3, a4, a5, a6⟩ := hi.plain hd' ht'
      by_cases hc : p' = p ∧ n' = n
      · obtain ⟨rfl, rfl⟩ := hc
        rw [hd] at hd'
        cases hd'
        rw [he] at a2
        cases a2
        refine ⟨e0, { e with fields := fs }, a1, ?_, a3, a4, a5, .inr ⟨hf, hn⟩⟩
        show Function.update s.decls d.kind _ d.kind p' n' = _
        rw [hdu]; simp
      · refine ⟨e0, e', a1, ?_, a3, a4, a5, a6.imp (And.imp (fun h h' => h (h'.resolve_right fun hv => hc ⟨hv.1, hv.2.1⟩)) id) id⟩
        show Function.update s.decls d.kind _ d'.kind p' n' = _
        rw [hdu, if_neg fun h => hc h.2]
        exact a2
    made := by
      intro p' n' t' h
      obtain ⟨hu', hn', d', e', a1, a2, a3, a4, a5, a6, a7⟩ := hi.made h
      refine ⟨hu', hn', d', e', a1, a2, ?_, a4, a5, a6, a7⟩
      show Function.update s.decls d.kind _ d'.kind p' n' = _
      rw [hdu, if_neg]
      · exact a3
      · rintro ⟨hk, rfl, rfl⟩
        have h1 := (P.avoid hu' hn' hd).1
        obtain ⟨-, d2, hd2, hk2, -⟩ := P.decl hu'
        rw [a1] at hd2
        cases hd2
        rw [hk, h1] at hk2
        rcases hk2 with h | h <;> cases h }

theorem decls_same {s : TSt} {k : TKind} {p : String} {n : Text} {e : TDecl} (he : s.decls k p n = some e) :
    { s with decls := Function.update s.decls k (Function.update (s.decls k) p
        (Function.update (s.decls k p) n (some { e with fields := e.fields }))) } = s := by
  have : Function.update s.decls k (Function.update (s.decls k) p
        (Function.update (s.decls k p) n (some { e with fields := e.fields }))) = s.decls := by
    funext k' p' n'
    rw [upd3]
    split
    · rename_i h
      obtain ⟨rfl, rfl, rfl⟩ := h
      exact he.symm
    · rfl
  rw [this]

theorem Run.congr {α : Type} {tot : Bool} {m m' : TM α} {s : TSt} {Q : α → TSt → Prop} (h : m s = m' s) (hr : Run tot m' s Q) :
    Run tot m s Q := by
  unfold Run at *
  rw [h]
  exact hr

theorem visit_none {n : Nat} {k : TKind} {p : String} {name : Text} {s : TSt} (h : s.decls k p name = none) :
    visit imports n k p name s = (pure () : TM Unit) s := by
  unfold visit
  rw [h]
  rfl

theorem visit_skip {n : Nat} {k : TKind} {p : String} {name : Text} {s : TSt} {e : TDecl} (h : s.decls k p name = some e)
    (hs : k = .union ∨ k = .other ∨ e.tparams ≠ []) : visit imports n k p name s = (pure () : TM Unit) s := by
  unfold visit
  rw [h]
  simp only [if_pos hs]
  rfl

/-- Replace the fields of a declaration. -/
def putFields (k : TKind) (p : String) (name : Text) (e : TDecl) (fs : List (Text × TPtr)) : TM Unit := fun s =>
  some (.ok ((), { s with
        decls := Function.update s.decls k (Function.update (s.decls k) p
          (Function.update (s.decls k p) name (some { e with fields := fs }))) }))

theorem visit_some {n : Nat} {k : TKind} {p : String} {name : Text} {s : TSt} {e : TDecl} (h : s.decls k p name = some e)
    (hs : ¬ (k = .union ∨ k = .other ∨ e.tparams ≠ [])) : visit imports n k p name s =
      (visitFields (instType imports p n) (if k = .inst then some name else none) e.fields >>= putFields k p name e) s := by
  unfold visit
  rw [h]
  simp only [if_neg hs]
  rfl

/-- One visit. -/
theorem visit_ok {tot : Bool} {ρ : String → Ty → Nat} (hr : tot = true → P.Ranked ρ) (hbare : strict = true → P.Bare)
    (hp0 : Parsed W s0) (n : Nat) (hn : tot = true → ∀ p t, P.U p t → ρ p t < n) (k : TKind) (p : String) (name : Text)
    {s : TSt} {orig : Origins} (hi : TInv strict P s0 D [] s orig) :
    Run tot (visit imports n k p name) s fun _ s' => ∃ orig',
      TInv strict P s0 (fun p' n' => D p' n' ∨ Visited W k p name p' n') [] s' orig' := by
  have hok : InstOk strict P s0 D tot (Below tot ρ p n) p (instType imports p n) := instType_ok hr hbare hp0 p n
  cases hdk : s.decls k p name with
  | none =>
    refine Run.congr (visit_none hdk) (Run.pure ⟨orig, hi.more ?_⟩)
    rintro p' n' d hd ht (h | ⟨rfl, rfl, d', hd', hk'⟩)
    · exact h
    · rw [hd] at hd'
      cases hd'
      obtain ⟨e0, e, -, a2, -⟩ := hi.plain hd ht
      rw [hk', hdk] at a2
      cases a2
  | some e =>
    -- a plain declaration of the source
    have hsrc : ∀ d, W p name = some d → d.kind = k → d.tparams = [] → e.tparams = [] ∧ ∃ e0, s0.decls d.kind p name = some e0 ∧
        ((¬ D p name ∧ e.fields = e0.fields) ∨ (FParts strict [] p s.heap orig (fun t => t) d.fields e.fields ∧
          (d.kind = .inst → ∀ x ∈ d.fields, x.ty.args ≠ [] → orig p name = some x.ty))) ∧
        List.Forall₂ (PartSrc s0.heap) d.fields e0.fields := by
      rintro d hd rfl ht
      obtain ⟨e0, e', a1, a2, a3, -, -, a6⟩ := hi.plain hd ht
      rw [hdk] at a2
      cases a2
      obtain ⟨e1, he1, -, hef, -⟩ := hp0.parts _ _ _ hd
      rw [a1] at he1
      cases he1
      exact ⟨a3, e0, a1, a6, hef⟩
    by_cases hskip : k = .union ∨ k = .other ∨ e.tparams ≠ []
    · refine Run.congr (visit_skip hdk hskip) ?_
      by_cases hw : ∃ d, W p name = some d ∧ d.kind = k ∧ d.tparams = []
      · obtain ⟨d, hd, rfl, ht⟩ := hw
        obtain ⟨het, e0, h1, h2, h3⟩ := hsrc d hd rfl ht
        have hk : d.kind = .union ∨ d.kind = .other := by
          rcases hskip with h | h | h
          · exact .inl h
          · exact .inr h
          · exact absurd het h
        have hfp : FParts strict [] p s.heap orig (fun t => t) d.fields e.fields := by
          rcases h2 with ⟨-, h2⟩ | ⟨h2, -⟩
          · rw [h2]
            exact parts_id hi p h3 fun x hx => P.unions hd hk hx
          · exact h2
        have := hi.setFields hd ht hdk hfp (fun h => by rw [h] at hk; rcases hk with h | h <;> cases h)
        rw [decls_same hdk] at this
        exact Run.pure ⟨orig, this⟩
      · refine Run.pure ⟨orig, hi.more ?_⟩
        rintro p' n' d hd ht (h | ⟨rfl, rfl, d', hd', hk'⟩)
        · exact h
        · rw [hd] at hd'
          cases hd'
          exact absurd ⟨d, hd, hk', ht⟩ hw
    · refine Run.congr (visit_some hdk hskip) ?_
      simp only [not_or, not_not] at hskip
      refine Run.bind (?_ : Run tot (visitFields _ _ _) s fun fs s' => ∃ orig',
        TInv strict P s0 (fun p' n' => D p' n' ∨ Visited W k p name p' n') [] { s' with
        decls := Function.update s'.decls k (Function.update (s'.decls k) p
          (Function.update (s'.decls k p) name (some { e with fields := fs }))) } orig')
      by_cases hw : ∃ d, W p name = some d ∧ d.kind = k
      · obtain ⟨d, hd, rfl⟩ := hw
        have ht : d.tparams = [] := by
          by_contra hne
          obtain ⟨e1, he1, het, -⟩ := hp0.parts _ _ _ hd
          rw [← hi.tmpl hd hne, hdk] at he1
          cases he1
          rw [← het] at hne
          exact hne hskip.2.2
        obtain ⟨het, e0, h1, h2, h3⟩ := hsrc d hd rfl ht
        rcases h2 with ⟨-, h2⟩ | ⟨h2, h2n⟩
        · rw [h2]
          refine (visitFields_ok hok (instType_nop p n) hi h3 fun x hx ha => ?_).mono ?_
          · obtain ⟨u1, u2⟩ := P.roots hd ht hx ha
            refine ⟨u1, fun htot => hn htot _ _ u1, fun N hN => ?_⟩
            by_cases hki : d.kind = .inst
            · rw [if_pos hki] at hN
              cases hN
              exact u2 hki
            · rw [if_neg hki] at hN
              cases hN
          · rintro fs s' ⟨orig', b1, b2, b3, b4, b5⟩
            refine ⟨orig', ?_⟩
            obtain ⟨e1, e2, c1, c2, c3, c4, c5, -⟩ := b3.plain hd ht
            rw [h1] at c1
            cases c1
            obtain ⟨e3, e4, g1, g2, g3, g4, g5, -⟩ := hi.plain hd ht
            rw [h1] at g1
            cases g1
            rw [hdk] at g2
            cases g2
            have := b3.setFields hd ht c2 b4 fun hki => b5 name (if_pos hki)
            rw [show ({ e with fields := fs } : TDecl) = { e2 with fields := fs } by
              cases e; cases e2; simp_all]
            exact this
        · refine (visitFields_nop (instType_nop p n) h2).mono ?_
          rintro fs s' ⟨rfl, rfl⟩
          exact ⟨orig, hi.setFields hd ht hdk h2 h2n⟩
      · rcases hi.declsOnly hdk with h | ⟨t, d, ho, hd, hk⟩
        · exact absurd h hw
        · obtain ⟨-, -, d', e', a1, a2, a3, a4, a5, -⟩ := hi.made ho
          rw [hd] at a1
          cases a1
          rw [hk, hdk] at a3
          cases a3
          refine (visitFields_nop (instType_nop p n) a5).mono ?_
          rintro fs s' ⟨rfl, rfl⟩
          refine ⟨orig, ?_⟩
          rw [decls_same hdk]
          refine hi.more ?_
          rintro p' n' d2 hd2 ht (h | ⟨rfl, rfl, d', hd', hk'⟩)
          · exact h
          · exact absurd ⟨d', hd', hk'⟩ hw

/-- The first state. -/
theorem TInv.start (hp0 : Parsed W s0) : TInv strict P s0 (fun _ _ => False) [] s0 (fun _ _ => none) where
  heap := HLe.refl
  avlo := by simp
  avhi := by simp
  kinds := fun {p n d} hd => .inl (by rw [hp0.kinds, hd]; rfl)
  kindsOnly := fun {p n k} h => by
    rw [hp0.kinds] at h
    cases hw : W p n with
    | none => rw [hw] at h; cases h
    | some d => exact .inl ⟨d, rfl⟩
  declsOnly := fun h => .inl (hp0.decls _ _ _ _ h)
  tmpl := fun _ _ => rfl
  plain := fun hd ht => by
    obtain ⟨e, he, het, -⟩ := hp0.parts _ _ _ hd
    exact ⟨e, e, he, he, het.trans ht, rfl, rfl, .inl ⟨id, rfl⟩⟩
  made := by
    intro p n t h
    cases h

/-- A whole run. -/
theorem instantiateTemplates_ok {tot : Bool} {ρ : String → Ty → Nat} (hr : tot = true → P.Ranked ρ)
    (hbare : strict = true → P.Bare) (hp0 : Parsed W s0) (n : Nat) (hn : tot = true → ∀ p t, P.U p t → ρ p t < n) :
    ∀ (order : List (TKind × String × Text)) {D : String → Text → Prop} {s : TSt} {orig : Origins},
    TInv strict P s0 D [] s orig → Run tot (instantiateTemplates imports n order) s fun _ s' => ∃ orig',
      TInv strict P s0 (fun p m => D p m ∨ ∃ d, W p m = some d ∧ (d.kind, p, m) ∈ order) [] s' orig'
  | [], D, s, orig, hi => Run.pure ⟨orig, hi.more (by simp)⟩
  | (k, p, name) :: rest, D, s, orig, hi => by
    unfold instantiateTemplates
    refine Run.bind ((visit_ok hr hbare hp0 n hn k p name hi).mono ?_)
    rintro _ s1 ⟨orig1, h1⟩
    refine (instantiateTemplates_ok hr hbare hp0 n hn rest h1).mono ?_
    rintro _ s2 ⟨orig2, h2⟩
    refine ⟨orig2, h2.more ?_⟩
    rintro p' n' d hd ht (h | ⟨d', hd', hm⟩)
    · exact .inl (.inl h)
    · rcases List.mem_cons.1 hm with h | h
      · simp only [Prod.mk.injEq] at h
        obtain ⟨rfl, rfl, rfl⟩ := h
        exact .inl (.inr ⟨rfl, rfl, d', hd', rfl⟩)
      · exact .inr ⟨d', hd', h⟩

/-- What the invariant says about meanings. -/
theorem TInv.standsFor {s : TSt} {orig : Origins} (hi : TInv strict P s0 D [] s orig) : ∀ (k : Nat) {p : String} {t : Ty} {r : TPtr},
    FRep [] p s.heap orig r t → StandsFor strict W s k t r
  | 0, _, _, _, _ => trivial
  | k + 1, p, t, r, hr => by
    obtain ⟨-, c, hc, hta, hk⟩ := hr
    refine ⟨c, hc, hta, ?_⟩
    rcases hk with rfl | ⟨h1, rfl, h3, h4⟩
    · rw [if_pos (show (Ty.mk _ _ _ _ []).args = [] from rfl)]
      exact ⟨rfl, rfl, rfl, rfl⟩
    · rw [if_neg h3]
      obtain ⟨-, -, d, e, a1, a2, a3, a4, a5, a6, a7⟩ := hi.made h4
      refine ⟨h1, d, e, a1, ?_, a4, ?_, ?_, ?_⟩
      · simp only [TSt.decl, a2, a3, Option.map_some]
      · exact List.Forall₂.imp (fun _ _ (h : FPart _ _ _ _ _ _ _ _) => ⟨h.1, hi.standsFor k h.2.1, h.2.2⟩) a5
      · exact List.Forall₂.imp (fun _ _ (h : FPart _ _ _ _ _ _ _ _) => ⟨h.1, hi.standsFor k h.2.1, h.2.2⟩) a6
      · exact List.Forall₂.imp (fun _ _ (h : FPart _ _ _ _ _ _ _ _) => ⟨h.1, hi.standsFor k h.2.1, h.2.2⟩) a7

/-- The parts stand for what the schema says. -/
theorem TInv.partsStandFor {s : TSt} {orig : Origins} (hi : TInv strict P s0 D [] s orig) (k : Nat) {p : String}
    {xs : List TPart} {ys : List (Text × TPtr)} (h : FParts strict [] p s.heap orig (fun t => t) xs ys) :
    PartsStandFor strict W s k xs ys :=
  List.Forall₂.imp (fun _ _ (h : FPart _ _ _ _ _ _ _ _) => ⟨h.1, hi.standsFor k h.2.1, h.2.2⟩) h

end run

end Verif
