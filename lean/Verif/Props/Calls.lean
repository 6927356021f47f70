import Verif.Calls
import Verif.Props.Fold
import Mathlib.Logic.Relation

/-!
# C97: functions that call functions

The specification `FMeans` says what an expression of a struct stands for: names are members of that struct, a call stands for the result of the function
that is called, which is read among the members of its own struct.  It is a least fixed point: what calls itself has no meaning.
-/

namespace Verif

variable {F : Type}

/-- What an expression that is written in the struct `c` stands for, and whether it is a constant. -/
inductive FMeans (o : FloatOps F) (S : FSchema F) : Nat → FEx F → Res F → Bool → Prop
  | leaf {c : Nat} {r : Res F} {full : Bool} : FMeans o S c (.leaf r full) r full
  | name {c : Nat} {x : Text} {m : FMember F} : S.function? c x = none → S.member? c x = some m → FMeans o S c (.name x) m.res false
  | call {c : Nat} {x : Text} {f : FId} {e : FEx F} {r : Res F} {full : Bool} : S.function? c x = some f → S.body? f = some e →
      FMeans o S f.1 e r full → FMeans o S c (.call x) r false
  | callOn {c c' : Nat} {x y : Text} {m : FMember F} {f : FId} {e : FEx F} {r : Res F} {full : Bool} : S.function? c x = none →
      S.member? c x = some m → m.struct = some c' → S.function? c' y = some f → S.body? f = some e → FMeans o S f.1 e r full →
      FMeans o S c (.callOn x y) r false
  | un {c : Nat} {op : UnOp} {e : FEx F} {x r : Res F} {full : Bool} : FMeans o S c e x full → evalUn o op x = (.ok, r) → FMeans o S c (.un op e) r full
  | bin {c : Nat} {op : BOp} {a b : FEx F} {x y r : Res F} {fa fb full : Bool} : FMeans o S c a x fa → FMeans o S c b y fb →
      evalBin o op x y (fa && fb) = ⟨.ok, r, full⟩ → FMeans o S c (.bin op a b) r full
  | tern {c : Nat} {d a b : FEx F} {w x y r : Res F} {fd fa fb : Bool} : FMeans o S c d w fd → FMeans o S c a x fa → FMeans o S c b y fb →
      evalTern o w x y = (.ok, r) → FMeans o S c (.tern d a b) r (fd && fa && fb)

/-- The functions that an expression of the struct `c` calls. -/
inductive FEx.Targets (S : FSchema F) (c : Nat) : FEx F → FId → Prop
  | call {x : Text} {f : FId} : S.function? c x = some f → Targets S c (.call x) f
  | callOn {c' : Nat} {x y : Text} {m : FMember F} {f : FId} : S.function? c x = none → S.member? c x = some m → m.struct = some c' →
      S.function? c' y = some f → Targets S c (.callOn x y) f
  | un {op : UnOp} {e : FEx F} {f : FId} : Targets S c e f → Targets S c (.un op e) f
  | binl {op : BOp} {a b : FEx F} {f : FId} : Targets S c a f → Targets S c (.bin op a b) f
  | binr {op : BOp} {a b : FEx F} {f : FId} : Targets S c b f → Targets S c (.bin op a b) f
  | tern1 {d a b : FEx F} {f : FId} : Targets S c d f → Targets S c (.tern d a b) f
  | tern2 {d a b : FEx F} {f : FId} : Targets S c a f → Targets S c (.tern d a b) f
  | tern3 {d a b : FEx F} {f : FId} : Targets S c b f → Targets S c (.tern d a b) f

/-- The function `f` calls the function `g`. -/
def FSchema.Calls (S : FSchema F) (f g : FId) : Prop := ∃ e, S.body? f = some e ∧ e.Targets S f.1 g

/-- No name of a function is used without a call. -/
def FEx.Called (S : FSchema F) (c : Nat) : FEx F → Prop
  | .name x => S.function? c x = none
  | .un _ e => e.Called S c
  | .bin _ a b => a.Called S c ∧ b.Called S c
  | .tern d a b => d.Called S c ∧ a.Called S c ∧ b.Called S c
  | _ => True

/-- In no expression of the schema. -/
structure FSchema.Called (S : FSchema F) : Prop where
  uses : ∀ (c : Nat) (s : FStruct F), S[c]? = some s → ∀ e ∈ s.uses, e.Called S c
  bodies : ∀ (f : FId) (e : FEx F), S.body? f = some e → e.Called S f.1

/-! ## The specification -/

theorem FMeans.unique {o : FloatOps F} {S : FSchema F} {c : Nat} {e : FEx F} {r r' : Res F} {b b' : Bool} (h : FMeans o S c e r b)
    (h' : FMeans o S c e r' b') : r = r' ∧ b = b' := by
  induction h generalizing r' b' with
  | leaf => cases h'; exact ⟨rfl, rfl⟩
  | name h1 h2 =>
    cases h' with
    | name k1 k2 => rw [h2] at k2; cases k2; exact ⟨rfl, rfl⟩
  | call h1 h2 h3 ih =>
    cases h' with
    | call k1 k2 k3 =>
      rw [h1] at k1; cases k1
      rw [h2] at k2; cases k2
      exact ⟨(ih k3).1, rfl⟩
  | callOn h1 h2 h3 h4 h5 h6 ih =>
    cases h' with
    | callOn k1 k2 k3 k4 k5 k6 =>
      rw [h2] at k2; cases k2
      rw [h3] at k3; cases k3
      rw [h4] at k4; cases k4
      rw [h5] at k5; cases k5
      exact ⟨(ih k6).1, rfl⟩
  | un h1 h2 ih =>
    cases h' with
    | un k1 k2 =>
      obtain ⟨rfl, rfl⟩ := ih k1
      rw [h2] at k2; cases k2
      exact ⟨rfl, rfl⟩
  | bin h1 h2 h3 ih1 ih2 =>
    cases h' with
    | bin k1 k2 k3 =>
      obtain ⟨rfl, rfl⟩ := ih1 k1
      obtain ⟨rfl, rfl⟩ := ih2 k2
      rw [h3] at k3; cases k3
      exact ⟨rfl, rfl⟩
  | tern h1 h2 h3 h4 ih1 ih2 ih3 =>
    cases h' with
    | tern k1 k2 k3 k4 =>
      obtain ⟨rfl, rfl⟩ := ih1 k1
      obtain ⟨rfl, rfl⟩ := ih2 k2
      obtain ⟨rfl, rfl⟩ := ih3 k3
      rw [h4] at k4; cases k4
      exact ⟨rfl, rfl⟩

/-- Nothing that has a meaning calls itself, directly or not. -/
theorem FMeans.acc {o : FloatOps F} {S : FSchema F} {c : Nat} {e : FEx F} {r : Res F} {b : Bool} (h : FMeans o S c e r b) :
    ∀ f, e.Targets S c f → Acc (fun g f => S.Calls f g) f := by
  have step : ∀ (f : FId) (e : FEx F), S.body? f = some e → (∀ g, e.Targets S f.1 g → Acc (fun g f => S.Calls f g) g) →
      Acc (fun g f => S.Calls f g) f := by
    intro f e hf h
    refine ⟨_, fun g ⟨e', h1, h2⟩ => ?_⟩
    rw [hf] at h1; cases h1
    exact h g h2
  induction h with
  | leaf => intro f hf; cases hf
  | name => intro f hf; cases hf
  | call h1 h2 h3 ih =>
    intro f hf
    cases hf with
    | call k1 => rw [h1] at k1; cases k1; exact step _ _ h2 ih
  | callOn h1 h2 h3 h4 h5 h6 ih =>
    intro f hf
    cases hf with
    | callOn k1 k2 k3 k4 =>
      rw [h2] at k2; cases k2
      rw [h3] at k3; cases k3
      rw [h4] at k4; cases k4
      exact step _ _ h5 ih
  | un h1 h2 ih => intro f hf; cases hf with | un k => exact ih f k
  | bin h1 h2 h3 ih1 ih2 =>
    intro f hf
    cases hf with
    | binl k => exact ih1 f k
    | binr k => exact ih2 f k
  | tern h1 h2 h3 h4 ih1 ih2 ih3 =>
    intro f hf
    cases hf with
    | tern1 k => exact ih1 f k
    | tern2 k => exact ih2 f k
    | tern3 k => exact ih3 f k

/-- A function with a meaning. -/
def FSchema.Meant (o : FloatOps F) (S : FSchema F) (f : FId) (r : Res F) : Prop := ∃ e full, S.body? f = some e ∧ FMeans o S f.1 e r full

theorem FSchema.Meant.not_cyclic {o : FloatOps F} {S : FSchema F} {f : FId} {r : Res F} (h : S.Meant o f r) : ¬ Relation.TransGen S.Calls f f := by
  obtain ⟨e, full, h1, h2⟩ := h
  have ha : Acc (fun g f => S.Calls f g) f := by
    refine ⟨_, fun g ⟨e', k1, k2⟩ => ?_⟩
    rw [h1] at k1; cases k1
    exact h2.acc g k2
  have ht : Acc (Relation.TransGen fun g f => S.Calls f g) f := ha.transGen
  intro hc
  have hc' : Relation.TransGen (fun g f => S.Calls f g) f f := (Relation.transGen_swap (r := S.Calls)).2 hc
  exact (ht.rec (motive := fun x _ => ¬ Relation.TransGen (fun g f => S.Calls f g) x x) fun x _ ih hx => ih x hx hx) hc'

/-! ## Names -/

theorem lastNamed_lt {l : List Text} {x : Text} {k : Nat} (h : lastNamed l x = some k) : k < l.length := by
  induction l generalizing k with
  | nil => cases h
  | cons y ys ih =>
    rw [lastNamed] at h
    cases hl : lastNamed ys x with
    | some i => rw [hl] at h; cases h; have := ih hl; simp; omega
    | none =>
      rw [hl] at h
      dsimp only at h
      split at h
      · cases h; simp
      · cases h

theorem FSchema.function_fst {S : FSchema F} {c : Nat} {x : Text} {f : FId} (h : S.function? c x = some f) : f.1 = c := by
  unfold FSchema.function? at h
  split at h
  · obtain ⟨k, _, rfl⟩ := Option.map_eq_some_iff.1 h; rfl
  · cases h

theorem FSchema.function_body {S : FSchema F} {c : Nat} {x : Text} {f : FId} (h : S.function? c x = some f) : ∃ e, S.body? f = some e := by
  unfold FSchema.function? at h
  split at h
  · rename_i s hs
    obtain ⟨k, hk, rfl⟩ := Option.map_eq_some_iff.1 h
    have := lastNamed_lt hk
    rw [List.length_map] at this
    exact ⟨(s.functions[k]).body, by simp only [FSchema.body?, hs, Option.bind_some, List.getElem?_eq_getElem this, Option.map_some]⟩
  · cases h

theorem memberTarget_inv {S : FSchema F} {m f : Text} {st : FState F} {t : FId} (h : memberTarget S m f st = some t) :
    ∃ c x c', st.cur = some c ∧ S.function? c m = none ∧ S.member? c m = some x ∧ x.struct = some c' ∧ S.function? c' f = some t := by
  obtain ⟨c, h1, h⟩ := Option.bind_eq_some_iff.1 h
  split at h
  · cases h
  · rename_i hn
    obtain ⟨x, h2, h⟩ := Option.bind_eq_some_iff.1 h
    obtain ⟨c', h3, h4⟩ := Option.bind_eq_some_iff.1 h
    exact ⟨c, x, c', h1, hn, h2, h3, h4⟩

theorem ownTarget_inv {S : FSchema F} {f : Text} {st : FState F} {t : FId} (h : ownTarget S f st = some t) :
    ∃ c, st.cur = some c ∧ S.function? c f = some t := Option.bind_eq_some_iff.1 h

/-! ## What an evaluation without errors leaves -/

/-- Results that are complete are the meanings. -/
def FResults (o : FloatOps F) (S : FSchema F) (st : FState F) : Prop := ∀ f, (st.funs f).status = .complete → S.Meant o f (st.funs f).res

/-- The current struct is the same, complete results stay, and nothing new is in progress. -/
structure FKeeps (st st' : FState F) : Prop where
  cur : st'.cur = st.cur
  done : ∀ f, (st.funs f).status = .complete → st'.funs f = st.funs f
  open' : ∀ f, (st'.funs f).status = .inProgress → (st.funs f).status = .inProgress

theorem FKeeps.refl (st : FState F) : FKeeps st st := ⟨rfl, fun _ _ => rfl, fun _ h => h⟩

theorem FKeeps.trans {a b c : FState F} (h : FKeeps a b) (k : FKeeps b c) : FKeeps a c :=
  ⟨k.cur.trans h.cur, fun f hf => by rw [k.done f (by rw [h.done f hf]; exact hf), h.done f hf], fun f hf => h.open' f (k.open' f hf)⟩

/-- What holds of the evaluation of functions holds of the evaluation of expressions. -/
theorem evalF_sound {o : FloatOps F} {S : FSchema F} {call : FId → FState F → Option (Out × FState F)}
    (hcall : ∀ f st st', call f st = some (.ok, st') → FResults o S st → st.cur = some f.1 →
      FResults o S st' ∧ FKeeps st st' ∧ (st'.funs f).status = .complete) {c : Nat} {e : FEx F} :
    ∀ {st st' : FState F} {v : EVal F}, e.Called S c → evalF o S call e st = some (v, st') → v.out = .ok → FResults o S st → st.cur = some c →
      FResults o S st' ∧ FKeeps st st' ∧ FMeans o S c e v.res v.full := by
  have hc : ∀ {t : Option FId} {st st' : FState F} {v : EVal F}, evalCall o call t st = some (v, st') → v.out = .ok → FResults o S st →
      ∃ f, t = some f ∧ FResults o S st' ∧ FKeeps st st' ∧ S.Meant o f v.res ∧ v.full = false := by
    intro t st st' v h hv hi
    unfold evalCall at h
    cases t with
    | none => cases h; cases hv
    | some f =>
      dsimp only at h
      split at h
      · cases h
      · rename_i st2 he
        cases h
        obtain ⟨h1, h2, h3⟩ := hcall _ _ _ he hi rfl
        exact ⟨f, rfl, h1, ⟨rfl, h2.done, h2.open'⟩, h1 f h3, rfl⟩
      · rename_i hne he
        cases h
        exact absurd hv (by intro h; dsimp only at h; subst h; exact hne rfl)
  induction e with
  | leaf r full => intro st st' v _ h _ hi _; cases h; exact ⟨hi, .refl _, .leaf⟩
  | name x =>
    intro st st' v hp h hv hi hs
    simp only [evalF, Option.some.injEq, Prod.mk.injEq] at h
    obtain ⟨rfl, rfl⟩ := h
    have hp : S.function? c x = none := hp
    unfold evalName at hv ⊢
    rw [hs] at hv ⊢
    simp only [hp] at hv ⊢
    cases hm : S.member? c x with
    | none => rw [hm] at hv; cases hv
    | some m => exact ⟨hi, .refl _, .name hp hm⟩
  | call f =>
    intro st st' v _ h hv hi hs
    obtain ⟨t, ht, h1, h2, ⟨e, full, h3, h4⟩, h5⟩ := hc (t := ownTarget S f st) h hv hi
    obtain ⟨c', k1, k2⟩ := ownTarget_inv ht
    rw [hs] at k1; cases k1
    exact ⟨h1, h2, h5 ▸ .call k2 h3 h4⟩
  | callOn m f =>
    intro st st' v _ h hv hi hs
    obtain ⟨t, ht, h1, h2, ⟨e, full, h3, h4⟩, h5⟩ := hc (t := memberTarget S m f st) h hv hi
    obtain ⟨c', x, c'', k1, k2, k3, k4, k5⟩ := memberTarget_inv ht
    rw [hs] at k1; cases k1
    exact ⟨h1, h2, h5 ▸ .callOn k2 k3 k4 k5 h3 h4⟩
  | un op e ih =>
    intro st st' v hp h hv hi hs
    rw [evalF] at h
    split at h
    · cases h
    · rename_i x st1 he
      split at h
      · rename_i hne; cases h; exact absurd hv hne
      · rename_i hx
        simp only [Option.some.injEq, Prod.mk.injEq] at h
        obtain ⟨rfl, rfl⟩ := h
        obtain ⟨h1, h2, h3⟩ := ih hp he (not_not.1 hx) hi hs
        exact ⟨h1, h2, .un h3 (Prod.ext hv rfl)⟩
  | bin op a b iha ihb =>
    intro st st' v hp h hv hi hs
    rw [evalF] at h
    split at h
    · cases h
    · rename_i x st1 he
      split at h
      · rename_i hne; cases h; exact absurd hv hne
      · rename_i hx
        split at h
        · cases h
        · rename_i y st2 he2
          split at h
          · rename_i hne; cases h; exact absurd hv hne
          · rename_i hy
            simp only [Option.some.injEq, Prod.mk.injEq] at h
            obtain ⟨rfl, rfl⟩ := h
            obtain ⟨h1, h2, h3⟩ := iha hp.1 he (not_not.1 hx) hi hs
            obtain ⟨k1, k2, k3⟩ := ihb hp.2 he2 (not_not.1 hy) h1 (h2.cur.trans hs)
            refine ⟨k1, h2.trans k2, .bin h3 k3 ?_⟩
            revert hv
            generalize evalBin o op x.res y.res (x.full && y.full) = w
            intro hv
            cases w
            cases hv
            rfl
  | tern d a b ihd iha ihb =>
    intro st st' v hp h hv hi hs
    rw [evalF] at h
    split at h
    · cases h
    · rename_i w st0 he0
      split at h
      · rename_i hne; cases h; exact absurd hv hne
      · rename_i hw
        split at h
        · cases h
        · rename_i x st1 he
          split at h
          · rename_i hne; cases h; exact absurd hv hne
          · rename_i hx
            split at h
            · cases h
            · rename_i y st2 he2
              split at h
              · rename_i hne; cases h; exact absurd hv hne
              · rename_i hy
                simp only [Option.some.injEq, Prod.mk.injEq] at h
                obtain ⟨rfl, rfl⟩ := h
                obtain ⟨g1, g2, g3⟩ := ihd hp.1 he0 (not_not.1 hw) hi hs
                obtain ⟨h1, h2, h3⟩ := iha hp.2.1 he (not_not.1 hx) g1 (g2.cur.trans hs)
                obtain ⟨k1, k2, k3⟩ := ihb hp.2.2 he2 (not_not.1 hy) h1 ((g2.trans h2).cur.trans hs)
                exact ⟨k1, (g2.trans h2).trans k2, .tern g3 h3 k3 (Prod.ext hv rfl)⟩

theorem set_same (st : FState F) (f : FId) (c : CState F) : (st.set f c).funs f = c := if_pos rfl

theorem set_other (st : FState F) {f g : FId} (h : g ≠ f) (c : CState F) : (st.set f c).funs g = st.funs g := if_neg h

theorem FResults.started {o : FloatOps F} {S : FSchema F} {st : FState F} (h : FResults o S st) (f : FId) (r : Res F) : FResults o S (st.set f ⟨.inProgress, r⟩) := by
  intro g hg
  by_cases e : g = f
  · subst e; rw [set_same] at hg; cases hg
  · rw [set_other _ e] at hg ⊢; exact h g hg

theorem evaluateFunction_sound {o : FloatOps F} {S : FSchema F} (hS : S.Called) : ∀ (fuel : Nat) (f : FId) (st st' : FState F),
    evaluateFunction o S fuel f st = some (.ok, st') → FResults o S st → st.cur = some f.1 →
      FResults o S st' ∧ FKeeps st st' ∧ (st'.funs f).status = .complete := by
  intro fuel
  induction fuel with
  | zero => intro f st st' h; cases h
  | succ fuel ih =>
    intro f st st' h hi hs
    rw [evaluateFunction] at h
    split at h
    · rename_i hc; cases h; exact ⟨hi, .refl _, hc⟩
    · cases h
    · cases h
    · rename_i e hst hb
      split at h
      · cases h
      · rename_i v st2 he
        split at h
        · rename_i hv
          cases h
          obtain ⟨h1, h2, h3⟩ := evalF_sound ih (hS.bodies f e hb) he hv (hi.started f _) hs
          refine ⟨fun g hg => ?_, ⟨h2.cur, fun g hg => ?_, fun g hg => ?_⟩, by rw [set_same]⟩
          · by_cases e' : g = f
            · subst e'; rw [set_same]; exact ⟨_, _, hb, h3⟩
            · rw [set_other _ e'] at hg ⊢; exact h1 g hg
          · have e' : g ≠ f := by rintro rfl; rw [hst] at hg; cases hg
            rw [set_other _ e', h2.done g (by rw [set_other _ e']; exact hg), set_other _ e']
          · by_cases e' : g = f
            · subst e'; rw [set_same] at hg; cases hg
            · rw [set_other _ e'] at hg
              have := h2.open' g hg
              rwa [set_other _ e'] at this
        · rename_i hne
          simp only [Option.some.injEq, Prod.mk.injEq] at h
          exact absurd h.1 hne

/-! ## What has a meaning is evaluated without errors -/

theorem evalF_complete {o : FloatOps F} {S : FSchema F} {call : FId → FState F → Option (Out × FState F)}
    (hcall : ∀ f st st', call f st = some (.ok, st') → FResults o S st → st.cur = some f.1 →
      FResults o S st' ∧ FKeeps st st' ∧ (st'.funs f).status = .complete)
    (hcomp : ∀ f st out st' r, call f st = some (out, st') → FResults o S st → st.cur = some f.1 → S.Meant o f r →
      (∀ g, (st.funs g).status = .inProgress → Relation.TransGen S.Calls g f) → out = .ok) {c : Nat} {e : FEx F} :
    ∀ {st st' : FState F} {v : EVal F} {r : Res F} {full : Bool}, e.Called S c → evalF o S call e st = some (v, st') → FResults o S st →
      st.cur = some c → FMeans o S c e r full →
      (∀ g, (st.funs g).status = .inProgress → ∀ t, e.Targets S c t → Relation.TransGen S.Calls g t) → v.out = .ok := by
  have hc : ∀ {f : FId} {st st' : FState F} {v : EVal F} {r : Res F}, evalCall o call (some f) st = some (v, st') → FResults o S st → S.Meant o f r →
      (∀ g, (st.funs g).status = .inProgress → Relation.TransGen S.Calls g f) → v.out = .ok := by
    intro f st st' v r h hi hm hg
    unfold evalCall at h
    dsimp only at h
    split at h
    · cases h
    · cases h; rfl
    · rename_i hne he
      cases h
      exact hcomp _ _ _ _ _ he hi rfl hm hg
  induction e with
  | leaf r full => intro st st' v r' full' _ h _ _ _ _; cases h; rfl
  | name x =>
    intro st st' v r full _ h _ hs hm _
    cases hm with
    | name h1 h2 =>
      simp only [evalF, evalName, hs, h1, h2, Option.some.injEq, Prod.mk.injEq] at h
      rw [← h.1]
  | call f =>
    intro st st' v r full _ h hi hs hm hg
    cases hm with
    | call h1 h2 h3 =>
      have ht : ownTarget S f st = some _ := Option.bind_eq_some_iff.2 ⟨c, hs, h1⟩
      rw [evalF, ht] at h
      exact hc h hi ⟨_, _, h2, h3⟩ fun g hg' => hg g hg' _ (.call h1)
  | callOn m f =>
    intro st st' v r full _ h hi hs hm hg
    cases hm with
    | callOn h1 h2 h3 h4 h5 h6 =>
      rename_i c' x t e' full'
      have ht : memberTarget S m f st = some t := by
        unfold memberTarget
        rw [hs, Option.bind_some, h1]
        dsimp only
        rw [h2, Option.bind_some, h3, Option.bind_some, h4]
      rw [evalF, ht] at h
      exact hc h hi ⟨_, _, h5, h6⟩ fun g hg' => hg g hg' _ (.callOn h1 h2 h3 h4)
  | un op e ih =>
    intro st st' v r full hp h hi hs hm hg
    cases hm with
    | un h1 h2 =>
      rw [evalF] at h
      split at h
      · cases h
      · rename_i x st1 he
        have hx := ih hp he hi hs h1 fun g hg' t ht => hg g hg' t (.un ht)
        rw [if_neg (not_not.2 hx)] at h
        simp only [Option.some.injEq, Prod.mk.injEq] at h
        obtain ⟨rfl, rfl⟩ := h
        obtain ⟨e1, e2⟩ := (evalF_sound (e := e) hcall hp he hx hi hs).2.2.unique h1
        show (evalUn o op x.res).1 = .ok
        rw [e1, h2]
  | bin op a b iha ihb =>
    intro st st' v r full hp h hi hs hm hg
    cases hm with
    | bin h1 h2 h3 =>
      rw [evalF] at h
      split at h
      · cases h
      · rename_i x st1 he
        have hx := iha hp.1 he hi hs h1 fun g hg' t ht => hg g hg' t (.binl ht)
        rw [if_neg (not_not.2 hx)] at h
        obtain ⟨i1, i2, i3⟩ := evalF_sound hcall hp.1 he hx hi hs
        obtain ⟨e1, e2⟩ := i3.unique h1
        split at h
        · cases h
        · rename_i y st2 he2
          have hs1 := i2.cur.trans hs
          have hy := ihb hp.2 he2 i1 hs1 h2 fun g hg' t ht => hg g (i2.open' g hg') t (.binr ht)
          rw [if_neg (not_not.2 hy)] at h
          simp only [Option.some.injEq, Prod.mk.injEq] at h
          obtain ⟨rfl, rfl⟩ := h
          obtain ⟨e3, e4⟩ := (evalF_sound hcall hp.2 he2 hy i1 hs1).2.2.unique h2
          rw [e1, e2, e3, e4, h3]
  | tern d a b ihd iha ihb =>
    intro st st' v r full hp h hi hs hm hg
    cases hm with
    | tern h0 h1 h2 h3 =>
      rw [evalF] at h
      split at h
      · cases h
      · rename_i w st0 he0
        have hw := ihd hp.1 he0 hi hs h0 fun g hg' t ht => hg g hg' t (.tern1 ht)
        rw [if_neg (not_not.2 hw)] at h
        obtain ⟨j1, j2, j3⟩ := evalF_sound hcall hp.1 he0 hw hi hs
        obtain ⟨e5, e6⟩ := j3.unique h0
        have hs0 := j2.cur.trans hs
        split at h
        · cases h
        · rename_i x st1 he
          have hx := iha hp.2.1 he j1 hs0 h1 fun g hg' t ht => hg g (j2.open' g hg') t (.tern2 ht)
          rw [if_neg (not_not.2 hx)] at h
          obtain ⟨i1, i2, i3⟩ := evalF_sound hcall hp.2.1 he hx j1 hs0
          obtain ⟨e1, e2⟩ := i3.unique h1
          split at h
          · cases h
          · rename_i y st2 he2
            have hs1 := i2.cur.trans hs0
            have hy := ihb hp.2.2 he2 i1 hs1 h2 fun g hg' t ht => hg g (j2.open' g (i2.open' g hg')) t (.tern3 ht)
            rw [if_neg (not_not.2 hy)] at h
            simp only [Option.some.injEq, Prod.mk.injEq] at h
            obtain ⟨rfl, rfl⟩ := h
            obtain ⟨e3, e4⟩ := (evalF_sound hcall hp.2.2 he2 hy i1 hs1).2.2.unique h2
            show (evalTern o w.res x.res y.res).1 = .ok
            rw [e5, e1, e3, h3]

theorem evaluateFunction_complete {o : FloatOps F} {S : FSchema F} (hS : S.Called) : ∀ (fuel : Nat) (f : FId) (st : FState F) (out : Out) (st' : FState F)
    (r : Res F), evaluateFunction o S fuel f st = some (out, st') → FResults o S st → st.cur = some f.1 → S.Meant o f r →
      (∀ g, (st.funs g).status = .inProgress → Relation.TransGen S.Calls g f) → out = .ok := by
  intro fuel
  induction fuel with
  | zero => intro f st out st' r h; cases h
  | succ fuel ih =>
    intro f st out st' r h hi hs hm hg
    rw [evaluateFunction] at h
    split at h
    · cases h; rfl
    · rename_i hst
      exact absurd (hg f hst) hm.not_cyclic
    · rename_i hb
      obtain ⟨e, full, h1, _⟩ := hm
      rw [hb] at h1; cases h1
    · rename_i e hst hb
      split at h
      · cases h
      · rename_i v st2 he
        obtain ⟨e', full, h1, h2⟩ := hm
        rw [hb] at h1; cases h1
        have hv := evalF_complete (evaluateFunction_sound hS fuel) ih (hS.bodies f e hb) he (hi.started f _) hs h2 (by
          intro g hg' t ht
          by_cases e' : g = f
          · subst e'; exact .single ⟨e, hb, ht⟩
          · rw [set_other _ e'] at hg'
            exact (hg g hg').tail ⟨e, hb, ht⟩)
        split at h
        · cases h; rfl
        · rename_i hne
          exact absurd hv hne

/-! ## The evaluation ends -/

/-- All functions of the schema. -/
def FSchema.all (S : FSchema F) : List FId :=
  (List.range S.length).flatMap fun c => (List.range ((S[c]?).elim 0 fun s => s.functions.length)).map fun k => (c, k)

theorem FSchema.mem_all {S : FSchema F} {f : FId} {e : FEx F} (h : S.body? f = some e) : f ∈ S.all := by
  obtain ⟨s, h1, h2⟩ := Option.bind_eq_some_iff.1 h
  obtain ⟨g, h3, _⟩ := Option.map_eq_some_iff.1 h2
  refine List.mem_flatMap.2 ⟨f.1, List.mem_range.2 (List.getElem?_eq_some_iff.1 h1).1, List.mem_map.2 ⟨f.2, List.mem_range.2 ?_, rfl⟩⟩
  rw [h1]
  exact (List.getElem?_eq_some_iff.1 h3).1

/-- How many functions have not been started. -/
def FSchema.left (S : FSchema F) (st : FState F) : Nat := (S.all.filter fun f => (st.funs f).status = .notStarted).length

theorem filter_length_mono {α : Type} (l : List α) (p q : α → Bool) (h : ∀ a ∈ l, q a = true → p a = true) : (l.filter q).length ≤ (l.filter p).length := by
  induction l with
  | nil => simp
  | cons a l ih =>
    have := ih fun b hb => h b (List.mem_cons_of_mem _ hb)
    cases hq : q a with
    | true => simp [hq, h a List.mem_cons_self hq, this]
    | false =>
      cases hp : p a with
      | true => simp [hp, hq]; omega
      | false => simp [hp, hq, this]

theorem filter_length_drop {α : Type} (l : List α) (p q : α → Bool) (h : ∀ a ∈ l, q a = true → p a = true) {a : α} (ha : a ∈ l) (hp : p a = true)
    (hq : q a = false) : (l.filter q).length < (l.filter p).length := by
  induction l with
  | nil => cases ha
  | cons b l ih =>
    have hm := filter_length_mono l p q fun b hb => h b (List.mem_cons_of_mem _ hb)
    rcases List.mem_cons.1 ha with rfl | ha
    · simp [hp, hq]; omega
    · have := ih (fun b hb => h b (List.mem_cons_of_mem _ hb)) ha
      cases hq' : q b with
      | true => simp [hq', h b List.mem_cons_self hq', this]
      | false =>
        cases hp' : p b with
        | true => simp [hp', hq']; omega
        | false => simp [hp', hq', this]

theorem FSchema.left_set (S : FSchema F) (st : FState F) (f : FId) (c : CState F) (hc : c.status ≠ .notStarted) : S.left (st.set f c) ≤ S.left st := by
  refine filter_length_mono _ _ _ fun g _ hg => ?_
  by_cases e : g = f
  · subst e; rw [set_same] at hg; exact absurd (of_decide_eq_true hg) hc
  · rwa [set_other _ e] at hg

theorem FSchema.left_start (S : FSchema F) {st : FState F} {f : FId} {e : FEx F} (hb : S.body? f = some e) (hf : (st.funs f).status = .notStarted)
    (r : Res F) : S.left (st.set f ⟨.inProgress, r⟩) < S.left st := by
  refine filter_length_drop _ _ _ (fun g _ hg => ?_) (mem_all hb) (decide_eq_true hf) (by simp [set_same])
  by_cases e : g = f
  · subst e; rw [set_same] at hg; cases of_decide_eq_true hg
  · rwa [set_other _ e] at hg

theorem evalF_total {o : FloatOps F} {S : FSchema F} {call : FId → FState F → Option (Out × FState F)} {n : Nat}
    (hcall : ∀ f st e, S.body? f = some e → S.left st < n → ∃ out st', call f st = some (out, st') ∧ S.left st' ≤ S.left st) (e : FEx F) :
    ∀ st, S.left st < n → ∃ v st', evalF o S call e st = some (v, st') ∧ S.left st' ≤ S.left st := by
  have hc : ∀ (t : Option FId) (st : FState F), S.left st < n → (∀ f, t = some f → ∃ e, S.body? f = some e) →
      ∃ v st', evalCall o call t st = some (v, st') ∧ S.left st' ≤ S.left st := by
    intro t st hl ht
    cases t with
    | none => exact ⟨_, _, rfl, le_refl _⟩
    | some f =>
      obtain ⟨e, he⟩ := ht f rfl
      obtain ⟨out, st', h1, h2⟩ := hcall f { st with cur := some f.1 } e he hl
      unfold evalCall
      simp only [h1]
      cases out <;> exact ⟨_, _, rfl, h2⟩
  induction e with
  | leaf r full => intro st _; exact ⟨_, _, rfl, le_refl _⟩
  | name x => intro st _; exact ⟨_, _, rfl, le_refl _⟩
  | call f =>
    intro st hl
    refine hc _ st hl fun t ht => ?_
    obtain ⟨c, _, h⟩ := ownTarget_inv ht
    exact FSchema.function_body h
  | callOn m f =>
    intro st hl
    refine hc _ st hl fun t ht => ?_
    obtain ⟨_, _, _, _, _, _, _, h⟩ := memberTarget_inv ht
    exact FSchema.function_body h
  | un op e ih =>
    intro st hl
    obtain ⟨x, st1, h1, h2⟩ := ih st hl
    rw [evalF, h1]
    dsimp only
    split <;> exact ⟨_, _, rfl, h2⟩
  | bin op a b iha ihb =>
    intro st hl
    obtain ⟨x, st1, h1, h2⟩ := iha st hl
    rw [evalF, h1]
    dsimp only
    split
    · exact ⟨_, _, rfl, h2⟩
    · obtain ⟨y, st2, h3, h4⟩ := ihb st1 (lt_of_le_of_lt h2 hl)
      rw [h3]
      dsimp only
      split <;> exact ⟨_, _, rfl, h4.trans h2⟩
  | tern d a b ihd iha ihb =>
    intro st hl
    obtain ⟨w, st0, h5, h6⟩ := ihd st hl
    rw [evalF, h5]
    dsimp only
    split
    · exact ⟨_, _, rfl, h6⟩
    · obtain ⟨x, st1, h1, h2⟩ := iha st0 (lt_of_le_of_lt h6 hl)
      rw [h1]
      dsimp only
      split
      · exact ⟨_, _, rfl, h2.trans h6⟩
      · obtain ⟨y, st2, h3, h4⟩ := ihb st1 (lt_of_le_of_lt (h2.trans h6) hl)
        rw [h3]
        dsimp only
        split <;> exact ⟨_, _, rfl, h4.trans (h2.trans h6)⟩

theorem evaluateFunction_total {o : FloatOps F} {S : FSchema F} : ∀ (fuel : Nat) (f : FId) (st : FState F) (e : FEx F), S.body? f = some e → S.left st < fuel →
    ∃ out st', evaluateFunction o S fuel f st = some (out, st') ∧ S.left st' ≤ S.left st := by
  intro fuel
  induction fuel with
  | zero => intro f st e _ h; omega
  | succ fuel ih =>
    intro f st e hb hl
    rw [evaluateFunction, hb]
    cases hst : (st.funs f).status with
    | complete => exact ⟨_, _, rfl, le_refl _⟩
    | inProgress => exact ⟨_, _, rfl, le_refl _⟩
    | notStarted =>
      have hd := S.left_start hb hst (Res.init o)
      obtain ⟨v, st', h1, h2⟩ := evalF_total (o := o) ih e (st.set f ⟨.inProgress, Res.init o⟩) (by omega)
      dsimp only
      rw [h1]
      dsimp only
      cases hv : v.out with
      | ok => exact ⟨_, _, rfl, (S.left_set st' f _ (fun h => by cases h)).trans (by omega)⟩
      | err => exact ⟨_, _, rfl, by omega⟩
      | panic => exact ⟨_, _, rfl, by omega⟩

/-- A larger bound changes nothing. -/
theorem evalF_mono {o : FloatOps F} {S : FSchema F} {call call' : FId → FState F → Option (Out × FState F)}
    (h : ∀ f st r, call f st = some r → call' f st = some r) (e : FEx F) : ∀ st r, evalF o S call e st = some r → evalF o S call' e st = some r := by
  have hc : ∀ t st r, evalCall o call t st = some r → evalCall o call' t st = some r := by
    intro t st r
    cases t with
    | none => exact id
    | some f =>
      unfold evalCall
      dsimp only
      intro hr
      cases hcall : call f { st with cur := some f.1 } with
      | none => rw [hcall] at hr; cases hr
      | some q => rw [h _ _ _ hcall]; rw [hcall] at hr; exact hr
  induction e with
  | leaf r full => intro st r' h; exact h
  | name x => intro st r h; exact h
  | call f => intro st r; exact hc _ _ _
  | callOn m f => intro st r; exact hc _ _ _
  | un op e ih =>
    intro st r hr
    rw [evalF] at hr ⊢
    cases he : evalF o S call e st with
    | none => rw [he] at hr; cases hr
    | some q => rw [ih _ _ he]; rw [he] at hr; exact hr
  | bin op a b iha ihb =>
    intro st r hr
    rw [evalF] at hr ⊢
    cases he : evalF o S call a st with
    | none => rw [he] at hr; cases hr
    | some q =>
      rw [iha _ _ he]; rw [he] at hr
      dsimp only at hr ⊢
      split
      · rename_i hq; rw [if_pos hq] at hr; exact hr
      · rename_i hq
        rw [if_neg hq] at hr
        cases he2 : evalF o S call b q.2 with
        | none => rw [he2] at hr; cases hr
        | some q2 => rw [ihb _ _ he2]; rw [he2] at hr; exact hr
  | tern d a b ihd iha ihb =>
    intro st r hr
    rw [evalF] at hr ⊢
    cases he0 : evalF o S call d st with
    | none => rw [he0] at hr; cases hr
    | some q0 =>
      rw [ihd _ _ he0]; rw [he0] at hr
      dsimp only at hr ⊢
      split
      · rename_i hq; rw [if_pos hq] at hr; exact hr
      · rename_i hq0
        rw [if_neg hq0] at hr
        cases he : evalF o S call a q0.2 with
        | none => rw [he] at hr; cases hr
        | some q =>
          rw [iha _ _ he]; rw [he] at hr
          dsimp only at hr ⊢
          split
          · rename_i hq; rw [if_pos hq] at hr; exact hr
          · rename_i hq
            rw [if_neg hq] at hr
            cases he2 : evalF o S call b q.2 with
            | none => rw [he2] at hr; cases hr
            | some q2 => rw [ihb _ _ he2]; rw [he2] at hr; exact hr

theorem evaluateFunction_mono {o : FloatOps F} {S : FSchema F} : ∀ (n m : Nat), n ≤ m → ∀ f st r, evaluateFunction o S n f st = some r →
    evaluateFunction o S m f st = some r := by
  intro n
  induction n with
  | zero => intro m _ f st r h; cases h
  | succ n ih =>
    intro m hm f st r h
    obtain ⟨m, rfl⟩ : ∃ k, m = k + 1 := ⟨m - 1, by omega⟩
    rw [evaluateFunction] at h ⊢
    cases hst : (st.funs f).status with
    | complete => simp only [hst] at h ⊢; exact h
    | inProgress => simp only [hst] at h ⊢; exact h
    | notStarted =>
      cases hb : S.body? f with
      | none => simp only [hst, hb] at h ⊢; exact h
      | some e =>
        simp only [hst, hb] at h ⊢
        cases he : evalF o S (evaluateFunction o S n) e (st.set f ⟨.inProgress, Res.init o⟩) with
        | none => rw [he] at h; cases h
        | some q => rw [evalF_mono (ih m (by omega)) e _ _ he]; rw [he] at h; exact h

/-! ## Structs -/

/-- What is left behind by structs that were evaluated without errors. -/
structure FDone (o : FloatOps F) (S : FSchema F) (st : FState F) : Prop where
  inv : FResults o S st
  closed : ∀ f, (st.funs f).status ≠ .inProgress

/-- All expressions of a struct have a meaning. -/
def FStruct.Fine (o : FloatOps F) (S : FSchema F) (c : Nat) (s : FStruct F) : Prop :=
  (∀ e ∈ s.uses, ∃ r full, FMeans o S c e r full) ∧ ∀ g ∈ s.functions, ∃ r full, FMeans o S c g.body r full

theorem uses_sound {o : FloatOps F} {S : FSchema F} (hS : S.Called) {fuel c : Nat} (es : List (FEx F)) : ∀ {st st' : FState F}, (∀ e ∈ es, e.Called S c) →
    evaluateUses o S fuel es st = some (.ok, st') → FResults o S st → st.cur = some c →
      FResults o S st' ∧ FKeeps st st' ∧ ∀ e ∈ es, ∃ r full, FMeans o S c e r full := by
  induction es with
  | nil => intro st st' _ h hi _; cases h; exact ⟨hi, .refl _, nofun⟩
  | cons e es ih =>
    intro st st' hp h hi hs
    rw [evaluateUses] at h
    split at h
    · cases h
    · rename_i v st1 he
      split at h
      · rename_i hv
        obtain ⟨h1, h2, h3⟩ := evalF_sound (evaluateFunction_sound hS fuel) (hp e List.mem_cons_self) he hv hi hs
        obtain ⟨k1, k2, k3⟩ := ih (fun e he => hp e (List.mem_cons_of_mem _ he)) h h1 (h2.cur.trans hs)
        exact ⟨k1, h2.trans k2, fun e' he' => (List.mem_cons.1 he').elim (fun e => e ▸ ⟨_, _, h3⟩) (k3 e')⟩
      · rename_i hv
        simp only [Option.some.injEq, Prod.mk.injEq] at h
        exact absurd h.1 hv

theorem functions_sound {o : FloatOps F} {S : FSchema F} (hS : S.Called) {fuel c : Nat} (fs : List FId) : ∀ {st st' : FState F}, (∀ f ∈ fs, f.1 = c) →
    evaluateFunctions o S fuel fs st = some (.ok, st') → FResults o S st → st.cur = some c →
      FResults o S st' ∧ FKeeps st st' ∧ ∀ f ∈ fs, (st'.funs f).status = .complete := by
  induction fs with
  | nil => intro st st' _ h hi _; cases h; exact ⟨hi, .refl _, nofun⟩
  | cons f fs ih =>
    intro st st' hp h hi hs
    rw [evaluateFunctions] at h
    split at h
    · cases h
    · rename_i st1 he
      obtain ⟨h1, h2, h3⟩ := evaluateFunction_sound hS fuel f st st1 he hi (by rw [hs, hp f List.mem_cons_self])
      obtain ⟨k1, k2, k3⟩ := ih (fun f hf => hp f (List.mem_cons_of_mem _ hf)) h h1 (h2.cur.trans hs)
      refine ⟨k1, h2.trans k2, fun g hg => (List.mem_cons.1 hg).elim (fun e => ?_) (k3 g)⟩
      rw [e, k2.done f h3, h3]
    · rename_i hne he
      simp only [Option.some.injEq, Prod.mk.injEq] at h
      exact absurd (by rw [← h.1]) hne

theorem mem_functionIds {c : Nat} {s : FStruct F} {f : FId} : f ∈ ((List.range s.functions.length).map fun k => ((c, k) : FId)) ↔
    f.1 = c ∧ f.2 < s.functions.length := by
  simp only [List.mem_map, List.mem_range]
  constructor
  · rintro ⟨k, hk, rfl⟩; exact ⟨rfl, hk⟩
  · rintro ⟨rfl, hk⟩; exact ⟨f.2, hk, rfl⟩

theorem body_of {S : FSchema F} {c k : Nat} {s : FStruct F} (hs : S[c]? = some s) (hk : k < s.functions.length) :
    S.body? (c, k) = some (s.functions[k]).body := by
  simp only [FSchema.body?, hs, Option.bind_some, List.getElem?_eq_getElem hk, Option.map_some]

theorem struct_sound {o : FloatOps F} {S : FSchema F} (hS : S.Called) {fuel c : Nat} {st st' : FState F}
    (h : evaluateStruct o S fuel c st = some (.ok, st')) (hi : FDone o S st) :
    FDone o S st' ∧ (∀ f, (st.funs f).status = .complete → st'.funs f = st.funs f) ∧
      ∀ s, S[c]? = some s → (∀ e ∈ s.uses, ∃ r full, FMeans o S c e r full) ∧ ∀ k < s.functions.length, (st'.funs (c, k)).status = .complete := by
  unfold evaluateStruct at h
  cases hs : S[c]? with
  | none => rw [hs] at h; cases h; exact ⟨hi, fun _ _ => rfl, nofun⟩
  | some s =>
    rw [hs] at h
    dsimp only at h
    split at h
    · cases h
    · rename_i st1 he
      obtain ⟨h1, h2, h3⟩ := uses_sound hS s.uses (hS.uses c s hs) he (st := { st with cur := some c }) hi.inv rfl
      obtain ⟨k1, k2, k3⟩ := functions_sound hS _ (fun f hf => (mem_functionIds.1 hf).1) h h1 h2.cur
      refine ⟨⟨k1, fun f hf => hi.closed f (h2.open' f (k2.open' f hf))⟩, fun f hf => ?_, fun s' hs' => ?_⟩
      · rw [k2.done f (by rw [h2.done f hf]; exact hf), h2.done f hf]
      · cases hs'
        exact ⟨h3, fun k hk => k3 (c, k) (mem_functionIds.2 ⟨rfl, hk⟩)⟩
    · rename_i hne he
      simp only [Option.some.injEq, Prod.mk.injEq] at h
      exact absurd (by rw [← h.1]) hne

theorem structs_sound {o : FloatOps F} {S : FSchema F} (hS : S.Called) {fuel : Nat} (order : List Nat) : ∀ {st st' : FState F},
    evaluateStructs o S fuel order st = some (.ok, st') → FDone o S st →
    FDone o S st' ∧ (∀ f, (st.funs f).status = .complete → st'.funs f = st.funs f) ∧
      ∀ c ∈ order, ∀ s, S[c]? = some s → (∀ e ∈ s.uses, ∃ r full, FMeans o S c e r full) ∧ ∀ k < s.functions.length, (st'.funs (c, k)).status = .complete := by
  induction order with
  | nil => intro st st' h hi; cases h; exact ⟨hi, fun _ _ => rfl, nofun⟩
  | cons c cs ih =>
    intro st st' h hi
    rw [evaluateStructs] at h
    split at h
    · cases h
    · rename_i st1 he
      obtain ⟨h1, h2, h3⟩ := struct_sound hS he hi
      obtain ⟨k1, k2, k3⟩ := ih h h1
      refine ⟨k1, fun f hf => by rw [k2 f (by rw [h2 f hf]; exact hf), h2 f hf], fun c' hc' s hs => ?_⟩
      rcases List.mem_cons.1 hc' with rfl | hc'
      · refine ⟨(h3 s hs).1, fun k hk => ?_⟩
        have := (h3 s hs).2 k hk
        rw [k2 _ this]; exact this
      · exact k3 c' hc' s hs
    · rename_i hne he
      simp only [Option.some.injEq, Prod.mk.injEq] at h
      exact absurd (by rw [← h.1]) hne

theorem uses_complete {o : FloatOps F} {S : FSchema F} (hS : S.Called) {fuel c : Nat} (es : List (FEx F)) : ∀ {st st' : FState F} {out : Out},
    (∀ e ∈ es, e.Called S c) → evaluateUses o S fuel es st = some (out, st') → FDone o S st → st.cur = some c →
    (∀ e ∈ es, ∃ r full, FMeans o S c e r full) → out = .ok := by
  induction es with
  | nil => intro st st' out _ h _ _ _; cases h; rfl
  | cons e es ih =>
    intro st st' out hp h hi hs hm
    rw [evaluateUses] at h
    split at h
    · cases h
    · rename_i v st1 he
      obtain ⟨r, full, hr⟩ := hm e List.mem_cons_self
      have hv := evalF_complete (evaluateFunction_sound hS fuel) (evaluateFunction_complete hS fuel) (hp e List.mem_cons_self) he hi.inv hs hr
        fun g hg => absurd hg (hi.closed g)
      rw [if_pos hv] at h
      obtain ⟨h1, h2, h3⟩ := evalF_sound (evaluateFunction_sound hS fuel) (hp e List.mem_cons_self) he hv hi.inv hs
      exact ih (fun e he => hp e (List.mem_cons_of_mem _ he)) h ⟨h1, fun f hf => hi.closed f (h2.open' f hf)⟩ (h2.cur.trans hs)
        fun e he => hm e (List.mem_cons_of_mem _ he)

theorem functions_complete {o : FloatOps F} {S : FSchema F} (hS : S.Called) {fuel c : Nat} (fs : List FId) : ∀ {st st' : FState F} {out : Out},
    (∀ f ∈ fs, f.1 = c) → evaluateFunctions o S fuel fs st = some (out, st') → FDone o S st → st.cur = some c →
    (∀ f ∈ fs, ∃ r, S.Meant o f r) → out = .ok := by
  induction fs with
  | nil => intro st st' out _ h _ _ _; cases h; rfl
  | cons f fs ih =>
    intro st st' out hp h hi hs hm
    obtain ⟨r, hr⟩ := hm f List.mem_cons_self
    have hcur : st.cur = some f.1 := by rw [hs, hp f List.mem_cons_self]
    rw [evaluateFunctions] at h
    split at h
    · cases h
    · rename_i st1 he
      obtain ⟨h1, h2, h3⟩ := evaluateFunction_sound hS fuel f st st1 he hi.inv hcur
      exact ih (fun f hf => hp f (List.mem_cons_of_mem _ hf)) h ⟨h1, fun f hf => hi.closed f (h2.open' f hf)⟩ (h2.cur.trans hs)
        fun f hf => hm f (List.mem_cons_of_mem _ hf)
    · rename_i out' st1 hne he
      have := evaluateFunction_complete hS fuel f st _ _ r he hi.inv hcur hr fun g hg => absurd hg (hi.closed g)
      exact absurd this hne

theorem structs_complete {o : FloatOps F} {S : FSchema F} (hS : S.Called) {fuel : Nat} (order : List Nat) : ∀ {st st' : FState F} {out : Out},
    evaluateStructs o S fuel order st = some (out, st') → FDone o S st → (∀ c ∈ order, ∀ s, S[c]? = some s → s.Fine o S c) → out = .ok := by
  induction order with
  | nil => intro st st' out h _ _; cases h; rfl
  | cons c cs ih =>
    intro st st' out h hi hm
    rw [evaluateStructs] at h
    split at h
    · cases h
    · rename_i st1 he
      exact ih h (struct_sound hS he hi).1 fun c hc => hm c (List.mem_cons_of_mem _ hc)
    · rename_i out' st1 hne he
      refine absurd ?_ hne
      unfold evaluateStruct at he
      cases hs : S[c]? with
      | none => rw [hs] at he; cases he; rfl
      | some s =>
        rw [hs] at he
        dsimp only at he
        obtain ⟨f1, f2⟩ := hm c List.mem_cons_self s hs
        split at he
        · cases he
        · rename_i st2 hu
          obtain ⟨h1, h2, h3⟩ := uses_sound hS s.uses (hS.uses c s hs) hu (st := { st with cur := some c }) hi.inv rfl
          refine functions_complete hS _ (fun f hf => (mem_functionIds.1 hf).1) he ⟨h1, fun f hf => hi.closed f (h2.open' f hf)⟩ h2.cur fun f hf => ?_
          obtain ⟨rfl, k⟩ := mem_functionIds.1 hf
          obtain ⟨r, full, hr⟩ := f2 _ (List.getElem_mem k)
          exact ⟨r, _, full, body_of hs k, hr⟩
        · rename_i hne' hu
          exact absurd (uses_complete hS s.uses (hS.uses c s hs) hu (st := { st with cur := some c }) ⟨hi.inv, hi.closed⟩ rfl f1) hne'

theorem structs_total {o : FloatOps F} {S : FSchema F} {fuel : Nat} (order : List Nat) : ∀ st, S.left st < fuel →
    ∃ out st', evaluateStructs o S fuel order st = some (out, st') ∧ S.left st' ≤ S.left st := by
  have uses : ∀ (es : List (FEx F)) st, S.left st < fuel → ∃ out st', evaluateUses o S fuel es st = some (out, st') ∧ S.left st' ≤ S.left st := by
    intro es
    induction es with
    | nil => intro st _; exact ⟨_, _, rfl, le_refl _⟩
    | cons e es ih =>
      intro st hl
      obtain ⟨v, st1, h1, h2⟩ := evalF_total (o := o) (evaluateFunction_total fuel) e st hl
      rw [evaluateUses, h1]
      dsimp only
      split
      · obtain ⟨out, st', h3, h4⟩ := ih st1 (lt_of_le_of_lt h2 hl)
        exact ⟨out, st', h3, h4.trans h2⟩
      · exact ⟨_, _, rfl, h2⟩
  have functions : ∀ (fs : List FId) st, (∀ f ∈ fs, ∃ e, S.body? f = some e) → S.left st < fuel →
      ∃ out st', evaluateFunctions o S fuel fs st = some (out, st') ∧ S.left st' ≤ S.left st := by
    intro fs
    induction fs with
    | nil => intro st _ _; exact ⟨_, _, rfl, le_refl _⟩
    | cons f fs ih =>
      intro st hf hl
      obtain ⟨e, he⟩ := hf f List.mem_cons_self
      obtain ⟨out, st1, h1, h2⟩ := evaluateFunction_total (o := o) fuel f st e he hl
      rw [evaluateFunctions, h1]
      cases out with
      | ok =>
        obtain ⟨out, st', h3, h4⟩ := ih st1 (fun f h => hf f (List.mem_cons_of_mem _ h)) (lt_of_le_of_lt h2 hl)
        exact ⟨out, st', h3, h4.trans h2⟩
      | err => exact ⟨_, _, rfl, h2⟩
      | panic => exact ⟨_, _, rfl, h2⟩
  induction order with
  | nil => intro st _; exact ⟨_, _, rfl, le_refl _⟩
  | cons c cs ih =>
    intro st hl
    have : ∃ out st', evaluateStruct o S fuel c st = some (out, st') ∧ S.left st' ≤ S.left st := by
      unfold evaluateStruct
      cases hs : S[c]? with
      | none => exact ⟨_, _, rfl, le_refl _⟩
      | some s =>
        obtain ⟨out, st1, h1, h2⟩ := uses s.uses { st with cur := some c } hl
        dsimp only
        rw [h1]
        cases out with
        | ok =>
          obtain ⟨out, st', h3, h4⟩ := functions ((List.range s.functions.length).map fun k => (c, k)) st1 (fun f hf => by
            obtain ⟨rfl, k⟩ := mem_functionIds.1 hf
            exact ⟨_, body_of hs k⟩) (lt_of_le_of_lt h2 hl)
          exact ⟨out, st', h3, h4.trans h2⟩
        | err => exact ⟨_, _, rfl, h2⟩
        | panic => exact ⟨_, _, rfl, h2⟩
    obtain ⟨out, st1, h1, h2⟩ := this
    rw [evaluateStructs, h1]
    cases out with
    | ok =>
      obtain ⟨out, st', h3, h4⟩ := ih st1 (lt_of_le_of_lt h2 hl)
      exact ⟨out, st', h3, h4.trans h2⟩
    | err => exact ⟨_, _, rfl, h2⟩
    | panic => exact ⟨_, _, rfl, h2⟩

theorem structs_mono {o : FloatOps F} {S : FSchema F} {n m : Nat} (hnm : n ≤ m) (order : List Nat) : ∀ st r, evaluateStructs o S n order st = some r →
    evaluateStructs o S m order st = some r := by
  have uses : ∀ (es : List (FEx F)) st r, evaluateUses o S n es st = some r → evaluateUses o S m es st = some r := by
    intro es
    induction es with
    | nil => intro st r h; exact h
    | cons e es ih =>
      intro st r h
      rw [evaluateUses] at h ⊢
      cases he : evalF o S (evaluateFunction o S n) e st with
      | none => rw [he] at h; cases h
      | some q =>
        rw [evalF_mono (evaluateFunction_mono n m hnm) e _ _ he]
        rw [he] at h
        dsimp only at h ⊢
        split
        · rename_i hq; rw [if_pos hq] at h; exact ih _ _ h
        · rename_i hq; rw [if_neg hq] at h; exact h
  have functions : ∀ (fs : List FId) st r, evaluateFunctions o S n fs st = some r → evaluateFunctions o S m fs st = some r := by
    intro fs
    induction fs with
    | nil => intro st r h; exact h
    | cons f fs ih =>
      intro st r h
      rw [evaluateFunctions] at h ⊢
      cases he : evaluateFunction o S n f st with
      | none => rw [he] at h; cases h
      | some q =>
        rw [evaluateFunction_mono n m hnm _ _ _ he]
        rw [he] at h
        obtain ⟨out, st1⟩ := q
        cases out with
        | ok => exact ih _ _ h
        | err => exact h
        | panic => exact h
  have struct : ∀ c st r, evaluateStruct o S n c st = some r → evaluateStruct o S m c st = some r := by
    intro c st r h
    unfold evaluateStruct at h ⊢
    cases hs : S[c]? with
    | none => rw [hs] at h; exact h
    | some s =>
      rw [hs] at h
      dsimp only at h ⊢
      cases he : evaluateUses o S n s.uses { st with cur := some c } with
      | none => rw [he] at h; cases h
      | some q =>
        rw [uses _ _ _ he]
        rw [he] at h
        obtain ⟨out, st1⟩ := q
        cases out with
        | ok => exact functions _ _ _ h
        | err => exact h
        | panic => exact h
  induction order with
  | nil => intro st r h; exact h
  | cons c cs ih =>
    intro st r h
    rw [evaluateStructs] at h ⊢
    cases he : evaluateStruct o S n c st with
    | none => rw [he] at h; cases h
    | some q =>
      rw [struct _ _ _ he]
      rw [he] at h
      obtain ⟨out, st1⟩ := q
      cases out with
      | ok => exact ih _ _ h
      | err => exact h
      | panic => exact h

/-! ## The claims -/

/-- How many functions there are. -/
def FSchema.count (S : FSchema F) : Nat := (S.map fun s => s.functions.length).sum

theorem FSchema.all_length (S : FSchema F) : S.all.length = S.count := by
  have h : ∀ (T : FSchema F), ((List.range T.length).map fun c => (T[c]?).elim 0 fun s => s.functions.length) = T.map fun s => s.functions.length := by
    intro T
    refine List.ext_getElem (by simp) fun i h1 h2 => ?_
    simp only [List.length_map, List.length_range] at h1
    simp [List.getElem?_eq_getElem h1]
  unfold FSchema.all FSchema.count
  rw [List.length_flatMap, ← h S]
  simp

theorem FDone.start (o : FloatOps F) (S : FSchema F) : FDone o S (FState.start o) := by
  constructor
  · intro f hf; cases hf
  · intro f hf; cases hf

/-- **C97**: evaluation ends, with and without cycles of calls, in whatever order the structs are taken: calls are nested at most one deeper than there are
functions, and more room changes nothing. -/
theorem C97_ends (o : FloatOps F) (S : FSchema F) (order : List Nat) (fuel : Nat) (hf : S.count < fuel) :
    ∃ r, evaluateStructs o S fuel order (FState.start o) = some r ∧ evaluateStructs o S (S.count + 1) order (FState.start o) = some r := by
  have hl : S.left (FState.start o) ≤ S.count := by
    rw [← S.all_length]
    exact List.length_filter_le _ _
  obtain ⟨out, st', h, _⟩ := structs_total (o := o) (S := S) (fuel := S.count + 1) order (FState.start o) (by omega)
  exact ⟨_, structs_mono (by omega) order _ _ h, h⟩

/-- **C97** (partial): if the structs are evaluated without error, every expression in them has a meaning, and the result of every function is its meaning:
names are members of the struct in which they are written, whatever was called before.  What is missing are names of functions without a call (below). -/
theorem C97_meaning_partial (o : FloatOps F) (S : FSchema F) (hS : S.Called) (fuel : Nat) (order : List Nat) (st : FState F)
    (h : evaluateStructs o S fuel order (FState.start o) = some (.ok, st)) (c : Nat) (hc : c ∈ order) (s : FStruct F) (hs : S[c]? = some s) :
    (∀ e ∈ s.uses, ∃ r full, FMeans o S c e r full) ∧
      ∀ k (hk : k < s.functions.length), ∃ full, FMeans o S c (s.functions[k]).body (st.funs (c, k)).res full := by
  obtain ⟨h1, _, h3⟩ := structs_sound hS order h (FDone.start o S)
  refine ⟨(h3 c hc s hs).1, fun k hk => ?_⟩
  obtain ⟨e, full, k1, k2⟩ := h1.inv (c, k) ((h3 c hc s hs).2 k hk)
  rw [body_of hs hk] at k1
  cases k1
  exact ⟨full, k2⟩

/-- **C97** (partial): if every expression has a meaning, the structs are evaluated without error, in every order.  What is missing is as above. -/
theorem C97_accepted_partial (o : FloatOps F) (S : FSchema F) (hS : S.Called) (order : List Nat)
    (hm : ∀ c ∈ order, ∀ s, S[c]? = some s → s.Fine o S c) : ∃ st, evaluateStructs o S (S.count + 1) order (FState.start o) = some (.ok, st) := by
  obtain ⟨⟨out, st⟩, h, _⟩ := C97_ends o S order (S.count + 1) (by omega)
  obtain rfl := structs_complete hS order h (FDone.start o S) hm
  exact ⟨st, h⟩

/-- **C97** (partial): whether the structs are accepted and what their functions result in does not depend on the order in which they are taken.  What is
missing is as above. -/
theorem C97_order_partial (o : FloatOps F) (S : FSchema F) (hS : S.Called) (order order' : List Nat) (hp : ∀ c, c ∈ order ↔ c ∈ order') (st : FState F)
    (h : evaluateStructs o S (S.count + 1) order (FState.start o) = some (.ok, st)) :
    ∃ st', evaluateStructs o S (S.count + 1) order' (FState.start o) = some (.ok, st') ∧
      ∀ c ∈ order, ∀ s, S[c]? = some s → ∀ k < s.functions.length, (st'.funs (c, k)).res = (st.funs (c, k)).res := by
  have h1 := C97_meaning_partial o S hS _ order st h
  obtain ⟨st', h2⟩ := C97_accepted_partial o S hS order' fun c hc s hs => ⟨(h1 c ((hp c).2 hc) s hs).1, fun g hg => by
    obtain ⟨k, hk, rfl⟩ := List.getElem_of_mem hg
    obtain ⟨full, hf⟩ := (h1 c ((hp c).2 hc) s hs).2 k hk
    exact ⟨_, full, hf⟩⟩
  refine ⟨st', h2, fun c hc s hs k hk => ?_⟩
  obtain ⟨_, k1⟩ := (h1 c hc s hs).2 k hk
  obtain ⟨_, k2⟩ := (C97_meaning_partial o S hS _ order' st' h2 c ((hp c).1 hc) s hs).2 k hk
  exact (k2.unique k1).1

/-- **C97** (partial): functions that call one another in a circle are reported.  What is missing is as above. -/
theorem C97_cycle_partial (o : FloatOps F) (S : FSchema F) (hS : S.Called) (order : List Nat) (c k : Nat) (hc : c ∈ order) (s : FStruct F)
    (hs : S[c]? = some s) (hk : k < s.functions.length) (hcyc : Relation.TransGen S.Calls (c, k) (c, k)) :
    ∃ out st, evaluateStructs o S (S.count + 1) order (FState.start o) = some (out, st) ∧ out ≠ .ok := by
  obtain ⟨⟨out, st⟩, h, _⟩ := C97_ends o S order (S.count + 1) (by omega)
  refine ⟨out, st, h, ?_⟩
  rintro rfl
  obtain ⟨full, hf⟩ := (C97_meaning_partial o S hS _ order st h c hc s hs).2 k hk
  exact FSchema.Meant.not_cyclic ⟨_, full, body_of hs hk, hf⟩ hcyc

/-! ## Names -/

/-- The last place of `x` in a list. -/
def LastAt {α : Type} (l : List α) (x : α) (i : Nat) : Prop := l[i]? = some x ∧ ∀ j, i < j → l[j]? ≠ some x

theorem lastNamed_none {l : List Text} {x : Text} (h : lastNamed l x = none) : x ∉ l := by
  induction l with
  | nil => simp
  | cons y ys ih =>
    rw [lastNamed] at h
    cases hl : lastNamed ys x with
    | some i => rw [hl] at h; cases h
    | none =>
      rw [hl] at h
      by_cases hy : y = x
      · simp [hy] at h
      · simp [ih hl, Ne.symm hy]

theorem lastNamed_at {l : List Text} {x : Text} {i : Nat} (h : lastNamed l x = some i) : LastAt l x i := by
  induction l generalizing i with
  | nil => cases h
  | cons y ys ih =>
    rw [lastNamed] at h
    cases hl : lastNamed ys x with
    | some k =>
      rw [hl] at h
      cases h
      obtain ⟨h1, h2⟩ := ih hl
      refine ⟨by simpa using h1, fun j hj => ?_⟩
      obtain ⟨j, rfl⟩ : ∃ j', j = j' + 1 := ⟨j - 1, by omega⟩
      simpa using h2 j (by omega)
    | none =>
      rw [hl] at h
      by_cases hy : y = x
      · simp only [hy, if_true, Option.some.injEq] at h
        subst h
        refine ⟨by simp [hy], fun j hj => ?_⟩
        obtain ⟨j, rfl⟩ : ∃ j', j = j' + 1 := ⟨j - 1, by omega⟩
        simp only [List.getElem?_cons_succ]
        exact fun hj' => lastNamed_none hl (List.mem_of_getElem? hj')
      · simp [hy] at h

theorem lastNamed_iff {l : List Text} {x : Text} {i : Nat} : lastNamed l x = some i ↔ LastAt l x i := by
  refine ⟨lastNamed_at, fun ⟨h1, h2⟩ => ?_⟩
  cases hl : lastNamed l x with
  | none => exact absurd (List.mem_of_getElem? h1) (lastNamed_none hl)
  | some k =>
    obtain ⟨k1, k2⟩ := lastNamed_at hl
    rcases Nat.lt_trichotomy i k with h | h | h
    · exact absurd k1 (h2 k h)
    · rw [h]
    · exact absurd h1 (k2 i h)

/-- **C97**: the names in `FMeans` are those of the struct: a function or member is found exactly if the struct declares one of that name, the last one if there
are several, and a function comes before a member. -/
theorem C97_names (S : FSchema F) (c : Nat) (s : FStruct F) (hs : S[c]? = some s) (x : Text) :
    (∀ f, S.function? c x = some f ↔ f.1 = c ∧ LastAt (s.functions.map FFun.name) x f.2) ∧
    (S.function? c x = none ↔ ∀ g ∈ s.functions, g.name ≠ x) ∧
    (∀ m, S.member? c x = some m ↔ ∃ i, s.members[i]? = some m ∧ LastAt (s.members.map FMember.name) x i) ∧
    ∀ k e, S.body? (c, k) = some e ↔ ∃ g, s.functions[k]? = some g ∧ g.body = e := by
  refine ⟨fun f => ?_, ?_, fun m => ?_, fun k e => ?_⟩
  · simp only [FSchema.function?, hs, Option.map_eq_some_iff]
    constructor
    · rintro ⟨k, hk, rfl⟩
      exact ⟨rfl, lastNamed_iff.1 hk⟩
    · rintro ⟨rfl, h⟩
      exact ⟨f.2, lastNamed_iff.2 h, rfl⟩
  · simp only [FSchema.function?, hs, Option.map_eq_none_iff]
    constructor
    · rintro h g hg rfl
      exact lastNamed_none h (List.mem_map_of_mem hg)
    · intro h
      cases hl : lastNamed (s.functions.map FFun.name) x with
      | none => rfl
      | some k =>
        obtain ⟨g, hg, hn⟩ := List.mem_map.1 (List.mem_of_getElem? (lastNamed_at hl).1)
        exact absurd hn (h g hg)
  · simp only [FSchema.member?, hs, Option.bind_eq_some_iff]
    constructor
    · rintro ⟨k, hk, h⟩
      exact ⟨k, h, lastNamed_iff.1 hk⟩
    · rintro ⟨k, h, hk⟩
      exact ⟨k, lastNamed_iff.2 hk, h⟩
  · simp only [FSchema.body?, hs, Option.bind_some, Option.map_eq_some_iff]

/-! ## Cases -/

/-- A number of type uint8 that is not constant. -/
def byteRes : Res Unit := { Res.init noFloats with ty := some .integer, native := some ⟨"uint8", 0, false⟩ }

/-- The literal 1. -/
def oneRes : Res Unit := { Res.init noFloats with ty := some .integer, i := 1#64 }

/-- A struct as a member. -/
def compoundRes : Res Unit := { Res.init noFloats with ty := some .compound }

/-- `struct A { B b; uint8 n; uint8 u[b.g()]; function uint8 f() { return b.g() + n; } };` and
`struct B { uint8 m; function uint8 g() { return h() + m; } function uint8 h() { return m + 1; } };` -/
def exCalling : FSchema Unit :=
  [⟨[⟨['b'], compoundRes, some 1⟩, ⟨['n'], byteRes, none⟩, ⟨['u'], byteRes, none⟩], [.callOn ['b'] ['g']],
    [⟨['f'], some ⟨"uint8", 0, false⟩, .bin .add (.callOn ['b'] ['g']) (.name ['n'])⟩]⟩,
   ⟨[⟨['m'], byteRes, none⟩], [],
    [⟨['g'], some ⟨"uint8", 0, false⟩, .bin .add (.call ['h']) (.name ['m'])⟩, ⟨['h'], some ⟨"uint8", 0, false⟩, .bin .add (.name ['m']) (.leaf oneRes true)⟩]⟩]

theorem calledOf {S : FSchema Unit} (hu : ∀ c, c < S.length → ∀ s, S[c]? = some s → ∀ e ∈ s.uses, e.Called S c)
    (hb : ∀ c, c < S.length → ∀ s, S[c]? = some s → ∀ g ∈ s.functions, g.body.Called S c) : S.Called := by
  refine ⟨fun c s hs => hu c (List.getElem?_eq_some_iff.1 hs).1 s hs, fun f e h => ?_⟩
  obtain ⟨s, h1, h2⟩ := Option.bind_eq_some_iff.1 h
  obtain ⟨g, h3, rfl⟩ := Option.map_eq_some_iff.1 h2
  exact hb f.1 (List.getElem?_eq_some_iff.1 h1).1 s h1 g (List.mem_of_getElem? h3)

theorem exCalling_called : exCalling.Called := by
  refine calledOf (fun c hc s hs e he => ?_) fun c hc s hs g hg => ?_
  · match c, hc with
    | 0, _ => cases hs; simp only [List.mem_cons, List.not_mem_nil, or_false] at he; subst he; trivial
    | 1, _ => cases hs; cases he
  · match c, hc with
    | 0, _ => cases hs; simp only [List.mem_cons, List.not_mem_nil, or_false] at hg; subst hg; exact ⟨trivial, rfl⟩
    | 1, _ =>
      cases hs; simp only [List.mem_cons, List.not_mem_nil, or_false] at hg
      rcases hg with rfl | rfl
      · exact ⟨trivial, rfl⟩
      · exact ⟨rfl, trivial⟩

/-- `m` in the body of `g` is the member of B, `g` behind `b` is its first function. -/
example : exCalling.function? 1 ['g'] = some (1, 0) ∧ (exCalling.member? 1 ['m']).map FMember.name = some ['m'] ∧ exCalling.function? 0 ['g'] = none :=
  ⟨rfl, rfl, rfl⟩

/-- It is accepted in both orders, with numbers of type uint8 as results. -/
example : ∃ st st', evaluateStructs noFloats exCalling 4 [0, 1] (FState.start noFloats) = some (.ok, st) ∧
    evaluateStructs noFloats exCalling 4 [1, 0] (FState.start noFloats) = some (.ok, st') ∧
    (st.funs (0, 0)).res.native = some ⟨"uint8", 0, false⟩ ∧ (st'.funs (0, 0)).res.native = some ⟨"uint8", 0, false⟩ := ⟨_, _, rfl, rfl, rfl, rfl⟩

/-- So the hypotheses of `C97_order_partial` are met. -/
example : ∃ st, evaluateStructs noFloats exCalling (exCalling.count + 1) [0, 1] (FState.start noFloats) = some (.ok, st) ∧
    ∃ st', evaluateStructs noFloats exCalling (exCalling.count + 1) [1, 0] (FState.start noFloats) = some (.ok, st') ∧
      ∀ c ∈ [0, 1], ∀ s, exCalling[c]? = some s → ∀ k < s.functions.length, (st'.funs (c, k)).res = (st.funs (c, k)).res :=
  ⟨_, rfl, C97_order_partial noFloats exCalling exCalling_called [0, 1] [1, 0] (by intro c; simp; omega) _ rfl⟩

/-- `struct A { B b; function uint8 f() { return b.g(); } }; struct B { A a; function uint8 g() { return a.f() + 1; } };` -/
def exCircle : FSchema Unit :=
  [⟨[⟨['b'], compoundRes, some 1⟩], [], [⟨['f'], some ⟨"uint8", 0, false⟩, .callOn ['b'] ['g']⟩]⟩,
   ⟨[⟨['a'], compoundRes, some 0⟩], [], [⟨['g'], some ⟨"uint8", 0, false⟩, .bin .add (.callOn ['a'] ['f']) (.leaf oneRes true)⟩]⟩]

/-- The circle is reported. -/
example : ∃ out st, evaluateStructs noFloats exCircle (exCircle.count + 1) [1, 0] (FState.start noFloats) = some (out, st) ∧ out ≠ .ok := by
  refine C97_cycle_partial noFloats exCircle (calledOf (fun c hc s hs e he => ?_) fun c hc s hs g hg => ?_) [1, 0] 0 0 (by simp) _ rfl (by decide) ?_
  · match c, hc with
    | 0, _ => cases hs; cases he
    | 1, _ => cases hs; cases he
  · match c, hc with
    | 0, _ => cases hs; simp only [List.mem_cons, List.not_mem_nil, or_false] at hg; subst hg; trivial
    | 1, _ => cases hs; simp only [List.mem_cons, List.not_mem_nil, or_false] at hg; subst hg; exact ⟨trivial, trivial⟩
  · exact .tail (.single (b := (1, 0)) ⟨_, rfl, .callOn rfl rfl rfl rfl⟩) ⟨_, rfl, .binl (.callOn rfl rfl rfl rfl)⟩

/-! ## Where it does not hold -/

/-- `struct A { B b; function uint8 h() { return b.g(); } }; struct B { function uint8 f() { return g + 1; } function uint8 g() { return 1; } };` -/
def exBare : FSchema Unit :=
  [⟨[⟨['b'], compoundRes, some 1⟩], [], [⟨['h'], some ⟨"uint8", 0, false⟩, .callOn ['b'] ['g']⟩]⟩,
   ⟨[], [], [⟨['f'], some ⟨"uint8", 0, false⟩, .bin .add (.name ['g']) (.leaf oneRes true)⟩, ⟨['g'], some ⟨"uint8", 0, false⟩, .leaf oneRes true⟩]⟩]

/-- **C97, violated**: a function that is used without a call is reported or not, depending on which struct the map of the package gives first. -/
theorem C97_violated_bare : ∃ (S : FSchema Unit) (st st' : FState Unit),
    S[1]? = some ⟨[], [], [⟨['f'], some ⟨"uint8", 0, false⟩, .bin .add (.name ['g']) (.leaf oneRes true)⟩, ⟨['g'], some ⟨"uint8", 0, false⟩, .leaf oneRes true⟩]⟩ ∧
    evaluateStructs noFloats S (S.count + 1) [0, 1] (FState.start noFloats) = some (.ok, st) ∧
    evaluateStructs noFloats S (S.count + 1) [1, 0] (FState.start noFloats) = some (.err, st') := ⟨exBare, _, _, rfl, rfl, rfl⟩

/-- **C97, violated**: a function hides the member of the same name: `struct A { uint8 n; uint8 u[n + 1]; function uint8 n() { return 1; } };` is refused, although
no function is called, and accepted without the function. -/
theorem C97_violated_hidden : ∃ (members : List (FMember Unit)) (e : FEx Unit) (g : FFun Unit) (st st' : FState Unit),
    e = .bin .add (.name ['n']) (.leaf oneRes true) ∧ g.name = ['n'] ∧
    evaluateStructs noFloats [⟨members, [e], []⟩] 1 [0] (FState.start noFloats) = some (.ok, st) ∧
    evaluateStructs noFloats [⟨members, [e], [g]⟩] 2 [0] (FState.start noFloats) = some (.err, st') :=
  ⟨[⟨['n'], byteRes, none⟩], _, ⟨['n'], some ⟨"uint8", 0, false⟩, .leaf oneRes true⟩, _, _, rfl, rfl, rfl, rfl⟩

/-- `struct A { uint8 n; function uint64 f() { return n; } function uint64 g() { return f() + n; } };` -/
def exDeclared : FSchema Unit :=
  [⟨[⟨['n'], byteRes, none⟩], [], [⟨['f'], some ⟨"uint64", 0, false⟩, .name ['n']⟩, ⟨['g'], some ⟨"uint64", 0, false⟩, .bin .add (.call ['f']) (.name ['n'])⟩]⟩]

/-- **C97, violated**: a call has the type of the expression in the function, not the type that is declared for it: with a function declared as uint64
that returns a uint8, its sum with a uint8 is a uint8. -/
theorem C97_violated_declared : ∃ (S : FSchema Unit) (s : FStruct Unit) (st : FState Unit), S = [s] ∧
    s.functions = [⟨['f'], some ⟨"uint64", 0, false⟩, .name ['n']⟩, ⟨['g'], some ⟨"uint64", 0, false⟩, .bin .add (.call ['f']) (.name ['n'])⟩] ∧
    evaluateStructs noFloats S (S.count + 1) [0] (FState.start noFloats) = some (.ok, st) ∧
    FMeans noFloats S 0 (.call ['f']) byteRes false ∧ (st.funs (0, 0)).res.native = some ⟨"uint8", 0, false⟩ ∧
    (st.funs (0, 1)).res.native = some ⟨"uint8", 0, false⟩ :=
  ⟨exDeclared, _, _, rfl, rfl, rfl, .call (f := (0, 0)) (e := .name ['n']) rfl rfl (.name (m := ⟨['n'], byteRes, none⟩) rfl rfl), rfl, rfl⟩

end Verif
