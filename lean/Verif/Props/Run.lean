import Verif.Run
import Verif.Props.Files

/-!
# C94: what a run of the generator leaves behind
-/

namespace Verif

/-- The text that belongs into the file of an output: the code itself, or without unused imports (C41) and formatted. -/
inductive Final (format : Text → Option Text) : Bool → Text → Text → Prop
  | plain (code : Text) : Final format true code code
  | formatted {code stripped text : Text} : stripImports code = some stripped → format stripped = some text → Final format false code text

/-- The outputs of all packages, with the names of their packages. -/
def allJobs (packages : List JobPackage) : List (Text × Job) := packages.flatMap fun p => p.jobs.map fun j => (p.name, j)

/-- The directory and file name that are asked for, for each output. -/
def jobRequests (root : Text) (jobs : List (Text × Job)) : List (Text × Text) := jobs.map fun j => (outputDir root j.1, j.2.name)

theorem sourceText_final {format : Text → Option Text} {b : Bool} {code t : Text} : sourceText format b code = .ok t ↔ Final format b code t := by
  unfold sourceText
  cases b with
  | true =>
    rw [if_pos rfl]
    constructor
    · rintro ⟨⟩; exact .plain _
    · rintro ⟨⟩; rfl
  | false =>
    rw [if_neg (by decide)]
    constructor
    · intro h
      split at h
      · cases h
      · rename_i c hc
        split at h
        · cases h
        · rename_i u hu
          cases h
          exact .formatted hc hu
    · rintro (_ | ⟨h1, h2⟩)
      rw [h1]
      dsimp only
      rw [h2]

/-- One file: it is written, or nothing else is touched. -/
theorem writeToFile_cases (format : Text → Option Text) (o : GenOptions) (fl : Faults) (root pkg fn code : Text) (m : PathCounts) (d : Disk) :
    (∃ p m' t, assembleUniqueFilePath m (outputDir root pkg) fn o.maxLen = .ok (p, m') ∧ Final format o.noFormat code t ∧
      fl.mkdir = true ∧ fl.opens = true ∧ fl.stops = none ∧
      writeToFile format o fl root pkg fn code m d = (.done, m', Function.update d p (some t))) ∨
    (∃ e m' d', e ≠ .done ∧ writeToFile format o fl root pkg fn code m d = (e, m', d') ∧
      (d' = d ∨ ∃ p c, (assembleUniqueFilePath m (outputDir root pkg) fn o.maxLen).toOption.map Prod.fst = some p ∧ d' = Function.update d p c ∧
        (e = .failed → fl.removes = true → c = none)) ∧
      ((∃ t, Final format o.noFormat code t) → (assembleUniqueFilePath m (outputDir root pkg) fn o.maxLen).toOption.isSome → fl.mkdir = true →
        fl.opens = true → fl.stops ≠ none)) := by
  unfold writeToFile
  cases ha : assembleUniqueFilePath m (outputDir root pkg) fn o.maxLen with
  | error e => exact .inr ⟨_, _, _, by decide, rfl, .inl rfl, fun _ h => by cases h⟩
  | ok r =>
    obtain ⟨p, m'⟩ := r
    dsimp only
    cases h1 : fl.mkdir with
    | false => exact .inr ⟨_, _, _, by decide, rfl, .inl rfl, fun _ _ h => by cases h⟩
    | true =>
      cases h2 : fl.opens with
      | false => exact .inr ⟨_, _, _, by decide, rfl, .inl rfl, fun _ _ _ h => by cases h⟩
      | true =>
        simp only [Bool.not_true, Bool.false_eq_true, if_false]
        cases hs : sourceText format o.noFormat code with
        | error e =>
          have hno : (∃ t, Final format o.noFormat code t) → False := by
            rintro ⟨t, ht⟩
            rw [sourceText_final.2 ht] at hs
            cases hs
          cases e with
          | panicked => exact .inr ⟨_, _, _, by decide, rfl, .inr ⟨p, _, rfl, rfl, fun h => by cases h⟩, fun h => (hno h).elim⟩
          | done => exact .inr ⟨_, _, _, by decide, rfl, .inr ⟨p, _, rfl, rfl, fun _ h => by rw [h]; rfl⟩, fun h => (hno h).elim⟩
          | failed => exact .inr ⟨_, _, _, by decide, rfl, .inr ⟨p, _, rfl, rfl, fun _ h => by rw [h]; rfl⟩, fun h => (hno h).elim⟩
        | ok t =>
          cases h3 : fl.stops with
          | none => exact .inl ⟨p, m', t, rfl, sourceText_final.1 hs, trivial, trivial, rfl, rfl⟩
          | some k => exact .inr ⟨_, _, _, by decide, rfl, .inr ⟨p, _, rfl, rfl, fun _ h => by rw [h]; rfl⟩, fun _ _ _ _ h => by cases h⟩

theorem assembleAll_cons {maxLen : Nat} {m m' : PathCounts} {dir fn p : Text} (h : assembleUniqueFilePath m dir fn maxLen = .ok (p, m'))
    (rest : List (Text × Text)) : assembleAll maxLen m ((dir, fn) :: rest) = (assembleAll maxLen m' rest).map (p :: ·) := by
  rw [assembleAll]
  simp only [h, bind, Except.bind, pure, Except.pure]
  cases assembleAll maxLen m' rest <;> rfl

theorem writeJobs_done (format : Text → Option Text) (o : GenOptions) (root : Text) (faults : Nat → Faults) (jobs : List (Text × Job)) :
    ∀ (i : Nat) (m : PathCounts) (d d' : Disk), writeJobs format o root faults i jobs m d = (.done, d') →
    ∃ ps : List Text, assembleAll o.maxLen m (jobRequests root jobs) = .ok ps ∧ ps.length = jobs.length ∧
      (∀ (k : Nat) (pkg : Text) (j : Job) (p : Text), jobs[k]? = some (pkg, j) → ps[k]? = some p → ∃ code t : Text, j.code = .ok code ∧ Final format o.noFormat code t ∧
        ((∀ l : Nat, k < l → ps[l]? ≠ some p) → d' p = some t)) ∧
      ∀ p : Text, p ∉ ps → d' p = d p := by
  induction jobs with
  | nil =>
    intro i m d d' h
    cases h
    exact ⟨[], rfl, rfl, fun k pkg j p h => by simp at h, fun p _ => rfl⟩
  | cons a jobs ih =>
    intro i m d d' h
    obtain ⟨pkg, j⟩ := a
    rw [writeJobs] at h
    cases hj : j.code with
    | error e => rw [hj] at h; cases h
    | ok code =>
      rw [hj] at h
      dsimp only at h
      rcases writeToFile_cases format o (faults i) root pkg j.name code m d with
        ⟨p, m', t, ha, hf, -, -, -, e⟩ | ⟨e, m', d1, hne, e1, -⟩
      · rw [e] at h
        obtain ⟨ps, h1, h2, h3, h4⟩ := ih _ _ _ _ h
        refine ⟨p :: ps, ?_, by simp [h2], ?_, ?_⟩
        · show assembleAll o.maxLen m ((outputDir root pkg, j.name) :: jobRequests root jobs) = _
          rw [assembleAll_cons ha, h1]
          rfl
        · rintro (_ | k) pkg' j' p' hk hp
          · cases hk
            cases hp
            refine ⟨code, t, hj, hf, fun hl => ?_⟩
            have : p ∉ ps := by
              intro hm
              obtain ⟨l, hl'⟩ := List.mem_iff_getElem?.1 hm
              exact hl (l + 1) (by omega) (by simpa using hl')
            rw [h4 p this, Function.update_self]
          · obtain ⟨code', t', c1, c2, c3⟩ := h3 k pkg' j' p' (by simpa using hk) (by simpa using hp)
            exact ⟨code', t', c1, c2, fun hl => c3 fun l hkl hpl => hl (l + 1) (by omega) (by simpa using hpl)⟩
        · intro p' hp'
          simp only [List.mem_cons, not_or] at hp'
          rw [h4 p' hp'.2, Function.update_of_ne hp'.1]
      · rw [e1] at h
        cases e with
        | done => exact absurd rfl hne
        | failed => cases h
        | panicked => cases h

/-- **C94**: if a run into a directory succeeds, every output has got a path, the file there has the text of the output unless a later output has the
same path (C37), and all other files are as before. -/
theorem C94_written {format : Text → Option Text} {o : GenOptions} {root : Text} {faults : Nat → Faults} {packages : List JobPackage} {d : Disk}
    (hroot : root ≠ ['-']) (h : (generate format o root faults packages d).ending = .done) :
    ∃ ps : List Text, assembleAll o.maxLen noPaths (jobRequests root (allJobs packages)) = .ok ps ∧ ps.length = (allJobs packages).length ∧
      (∀ (k : Nat) (pkg : Text) (j : Job) (p : Text), (allJobs packages)[k]? = some (pkg, j) → ps[k]? = some p → ∃ code t : Text, j.code = .ok code ∧ Final format o.noFormat code t ∧
        ((∀ l : Nat, k < l → ps[l]? ≠ some p) → (generate format o root faults packages d).disk p = some t)) ∧
      ∀ p : Text, p ∉ ps → (generate format o root faults packages d).disk p = d p := by
  unfold generate at *
  rw [if_neg hroot] at *
  split at h
  · cases h
  · rename_i hr
    rw [if_neg hr]
    exact writeJobs_done format o root faults (allJobs packages) 0 noPaths d _ (Prod.ext h rfl)

/-- **C94**: if the paths are plain (C37) and a run succeeds, there is a file with the text of each output, and nothing else is changed.
Missing: names for which paths collide, see `C94_violated_overwritten`. -/
theorem C94_files_partial {format : Text → Option Text} {o : GenOptions} {root : Text} {faults : Nat → Faults} {packages : List JobPackage} {d : Disk}
    (hroot : root ≠ ['-']) (h : (generate format o root faults packages d).ending = .done)
    (hr : ∀ r ∈ jobRequests root (allJobs packages), CleanDir r.1 ∧ r.2 ≠ [] ∧ '/' ∉ r.2 ∧ r.1.length + 1 + r.2.length + 5 ≤ o.maxLen ∧
      ∀ x k, r.2 ≠ x ++ '_' :: decimal (k + 1)) :
    ∃ ps : List Text, ps.Nodup ∧ ps.length = (allJobs packages).length ∧
      (∀ (k : Nat) (pkg : Text) (j : Job) (p : Text), (allJobs packages)[k]? = some (pkg, j) → ps[k]? = some p → ∃ code t : Text, j.code = .ok code ∧ Final format o.noFormat code t ∧
        (generate format o root faults packages d).disk p = some t) ∧
      ∀ p : Text, p ∉ ps → (generate format o root faults packages d).disk p = d p := by
  obtain ⟨ps, h1, h2, h3, h4⟩ := C94_written hroot h
  have hn := C37_plain_names_partial o.maxLen _ ps h1 hr
  refine ⟨ps, hn, h2, fun k pkg j p hk hp => ?_, h4⟩
  obtain ⟨code, t, c1, c2, c3⟩ := h3 k pkg j p hk hp
  refine ⟨code, t, c1, c2, c3 fun l hl hpl => ?_⟩
  have hlt : l < ps.length := (List.getElem?_eq_some_iff.1 hpl).1
  exact (List.nodup_iff_getElem?_ne_getElem?.1 hn k l hl hlt) (hp.trans hpl.symm)

theorem writeJobs_failed (format : Text → Option Text) (o : GenOptions) (root : Text) (faults : Nat → Faults) (hrem : ∀ i, (faults i).removes = true)
    (jobs : List (Text × Job)) : ∀ (i : Nat) (m : PathCounts) (d d' : Disk) (e : Ending), e ≠ .panicked →
    writeJobs format o root faults i jobs m d = (e, d') →
    ∀ p, d' p = d p ∨ d' p = none ∨ ∃ pkg j code t, (pkg, j) ∈ jobs ∧ j.code = .ok code ∧ Final format o.noFormat code t ∧ d' p = some t := by
  induction jobs with
  | nil =>
    intro i m d d' e _ h p
    cases h
    exact .inl rfl
  | cons a jobs ih =>
    intro i m d d' e he h p
    obtain ⟨pkg, j⟩ := a
    rw [writeJobs] at h
    cases hj : j.code with
    | error e => rw [hj] at h; cases h; exact .inl rfl
    | ok code =>
      rw [hj] at h
      dsimp only at h
      rcases writeToFile_cases format o (faults i) root pkg j.name code m d with
        ⟨q, m', t, ha, hf, -, -, -, e1⟩ | ⟨e2, m', d1, hne, e1, hc, -⟩
      · rw [e1] at h
        rcases ih _ _ _ _ _ he h p with h1 | h1 | ⟨pkg', j', code', t', g1, g2, g3, g4⟩
        · by_cases hpq : p = q
          · subst hpq
            rw [Function.update_self] at h1
            exact .inr (.inr ⟨pkg, j, code, t, by simp, hj, hf, h1⟩)
          · rw [Function.update_of_ne hpq] at h1
            exact .inl h1
        · exact .inr (.inl h1)
        · exact .inr (.inr ⟨pkg', j', code', t', by simp [g1], g2, g3, g4⟩)
      · rw [e1] at h
        have hfin : e = e2 ∧ d' = d1 := by
          cases e2 with
          | done => exact absurd rfl hne
          | failed => cases h; exact ⟨rfl, rfl⟩
          | panicked => cases h; exact ⟨rfl, rfl⟩
        obtain ⟨rfl, rfl⟩ := hfin
        rcases hc with rfl | ⟨q, c, -, rfl, hc⟩
        · exact .inl rfl
        · have hf : e = .failed := by
            cases e with
            | done => exact absurd rfl hne
            | failed => rfl
            | panicked => exact absurd rfl he
          rw [hc hf (hrem i)]
          by_cases hpq : p = q
          · subst hpq
            exact .inr (.inl (Function.update_self ..))
          · exact .inl (Function.update_of_ne hpq ..)

/-- **C94**: whatever fails, a run that ends with an error leaves no file with part of the code: each file is as it was, is gone, or has the whole text
of an output (if files can be removed). -/
theorem C94_no_half_files {format : Text → Option Text} {o : GenOptions} {root : Text} {faults : Nat → Faults} {packages : List JobPackage} {d : Disk}
    (hrem : ∀ i, (faults i).removes = true) (h : (generate format o root faults packages d).ending ≠ .panicked) (p : Text) :
    (generate format o root faults packages d).disk p = d p ∨ (generate format o root faults packages d).disk p = none ∨
      ∃ pkg ∈ packages, ∃ j ∈ pkg.jobs, ∃ code t : Text, j.code = .ok code ∧ Final format o.noFormat code t ∧
        (generate format o root faults packages d).disk p = some t := by
  unfold generate at *
  split
  · left
    split
    · rfl
    · unfold printPackage
      split
      · rfl
      · split
        · rfl
        · split
          · rfl
          · split <;> rfl
  · rename_i hroot
    rw [if_neg hroot] at h
    split
    · exact .inl rfl
    · rename_i hr
      rw [if_neg hr] at h
      rcases writeJobs_failed format o root faults hrem (allJobs packages) 0 noPaths d _ _ h rfl p with h1 | h1 | ⟨pkg, j, code, t, g1, g2, g3, g4⟩
      · exact .inl h1
      · exact .inr (.inl h1)
      · obtain ⟨q, q1, q2⟩ := List.mem_flatMap.1 g1
        obtain ⟨j', q3, q4⟩ := List.mem_map.1 q2
        cases q4
        exact .inr (.inr ⟨q, q1, j, q3, code, t, g2, g3, g4⟩)

theorem writeJobs_succeeds (format : Text → Option Text) (o : GenOptions) (root : Text) (faults : Nat → Faults)
    (hf : ∀ i, (faults i).mkdir = true ∧ (faults i).opens = true ∧ (faults i).stops = none) (jobs : List (Text × Job))
    (hj : ∀ j ∈ jobs, ∃ code t, j.2.code = .ok code ∧ Final format o.noFormat code t) :
    ∀ (i : Nat) (m : PathCounts) (d : Disk) (ps : List Text), assembleAll o.maxLen m (jobRequests root jobs) = .ok ps →
    (writeJobs format o root faults i jobs m d).1 = .done := by
  induction jobs with
  | nil => intro i m d ps _; rfl
  | cons a jobs ih =>
    intro i m d ps h
    obtain ⟨pkg, j⟩ := a
    obtain ⟨code, t, hc, ht⟩ := hj (pkg, j) (by simp)
    have h' : assembleAll o.maxLen m ((outputDir root pkg, j.name) :: jobRequests root jobs) = .ok ps := h
    cases ha : assembleUniqueFilePath m (outputDir root pkg) j.name o.maxLen with
    | error e =>
      rw [assembleAll] at h'
      simp only [ha, bind, Except.bind] at h'
      cases h'
    | ok r =>
      obtain ⟨p, m'⟩ := r
      rw [assembleAll_cons ha] at h'
      cases hr : assembleAll o.maxLen m' (jobRequests root jobs) with
      | error e => rw [hr] at h'; cases h'
      | ok ps' =>
        rw [writeJobs]
        simp only at hc
        rw [hc]
        dsimp only
        rcases writeToFile_cases format o (faults i) root pkg j.name code m d with
          ⟨q, m'', t', ha', -, -, -, -, e1⟩ | ⟨e2, m'', d1, hne, e1, -, hno⟩
        · rw [ha] at ha'
          cases ha'
          rw [e1]
          exact ih (fun j h => hj j (by simp [h])) _ _ _ _ hr
        · exact absurd (hf i).2.2 (hno ⟨t, ht⟩ (by rw [ha]; rfl) (hf i).1 (hf i).2.1)

/-- **C94**: a run succeeds if the system does not fail, all templates produce code that can be formatted, there is a root package and every output
gets a path (C50). -/
theorem C94_succeeds {format : Text → Option Text} {o : GenOptions} {root : Text} {faults : Nat → Faults} {packages : List JobPackage} {d : Disk}
    (hroot : root ≠ ['-']) (hr : o.rootPackage ≠ []) (hf : ∀ i, (faults i).mkdir = true ∧ (faults i).opens = true ∧ (faults i).stops = none)
    (hj : ∀ p ∈ packages, ∀ j ∈ p.jobs, ∃ code t : Text, j.code = .ok code ∧ Final format o.noFormat code t) {ps : List Text}
    (hps : assembleAll o.maxLen noPaths (jobRequests root (allJobs packages)) = .ok ps) :
    (generate format o root faults packages d).ending = .done := by
  unfold generate
  rw [if_neg hroot, if_neg (fun h => hr h.1)]
  refine writeJobs_succeeds format o root faults hf (allJobs packages) (fun j h => ?_) 0 noPaths d ps hps
  obtain ⟨q, q1, q2⟩ := List.mem_flatMap.1 h
  obtain ⟨j', q3, q4⟩ := List.mem_map.1 q2
  cases q4
  exact hj q q1 j' q3

/-- **C94**: to the standard output only the package that is asked for is printed, all of it, and no file is touched. -/
theorem C94_printed {format : Text → Option Text} {o : GenOptions} {faults : Nat → Faults} {packages : List JobPackage} {d : Disk} :
    (generate format o ['-'] faults packages d).disk = d ∧
    ((generate format o ['-'] faults packages d).ending = .done → ∃ pkg ∈ packages, pkg.name = o.only ∧ ∃ codes : List Text,
      pkg.jobs.map (fun j => j.code) = codes.map .ok ∧ Final format o.noFormat codes.flatten (generate format o ['-'] faults packages d).printed) := by
  have hjoin : ∀ (js : List Job) (code : Text), joinJobs js = .ok code → ∃ codes : List Text, js.map (fun j => j.code) = codes.map .ok ∧ codes.flatten = code := by
    intro js
    induction js with
    | nil =>
      intro code h
      cases h
      exact ⟨[], rfl, rfl⟩
    | cons j js ih =>
      intro code h
      rw [joinJobs] at h
      cases hc : j.code with
      | error e => rw [hc] at h; cases h
      | ok c =>
        cases hr : joinJobs js with
        | error e => rw [hc, hr] at h; cases h
        | ok r =>
          rw [hc, hr] at h
          cases h
          obtain ⟨codes, h1, h2⟩ := ih r hr
          exact ⟨c :: codes, by simp [hc, h1], by simp [h2]⟩
  unfold generate
  rw [if_pos rfl]
  cases hp : packages.find? (fun p => p.name = o.only) with
  | none => exact ⟨rfl, fun h => by cases h⟩
  | some pkg =>
    dsimp only
    have hm := List.mem_of_find?_eq_some hp
    have hn : pkg.name = o.only := by simpa using List.find?_some hp
    unfold printPackage
    split
    · exact ⟨rfl, fun h => by cases h⟩
    · cases hj : joinJobs pkg.jobs with
      | error e => exact ⟨rfl, fun h => by cases h⟩
      | ok code =>
        dsimp only
        cases hs : sourceText format o.noFormat code with
        | error e =>
          refine ⟨rfl, fun h => ?_⟩
          dsimp only at h
          subst h
          unfold sourceText at hs
          split at hs
          · cases hs
          · split at hs
            · cases hs
            · split at hs <;> cases hs
        | ok text =>
          dsimp only
          cases (faults 0).stops with
          | some k => exact ⟨rfl, fun h => by cases h⟩
          | none =>
            obtain ⟨codes, h1, h2⟩ := hjoin _ _ hj
            exact ⟨rfl, fun _ => ⟨pkg, hm, hn, codes, h1, by rw [h2]; exact sourceText_final.1 hs⟩⟩

/-! ## Cases -/

/-- A system that does not fail. -/
def noFaults : Nat → Faults := fun _ => ⟨true, true, none, true⟩

/-- Options without formatting. -/
def exOptions : GenOptions := ⟨"example".toList, true, [], 260⟩

/-- Two packages with two outputs each. -/
def exPackages : List JobPackage :=
  [⟨"a.B".toList, [⟨"pkg".toList, .ok "package b".toList⟩, ⟨"foo".toList, .ok "type Foo".toList⟩]⟩,
    ⟨"c".toList, [⟨"pkg".toList, .ok "package c".toList⟩, ⟨"bar".toList, .ok "type Bar".toList⟩]⟩]

example : let r := generate some exOptions "out".toList noFaults exPackages fun _ => none
    r.ending = .done ∧ r.disk "out/a/b/pkg.go".toList = some "package b".toList ∧ r.disk "out/a/b/foo.go".toList = some "type Foo".toList ∧
    r.disk "out/c/bar.go".toList = some "type Bar".toList ∧ r.disk "out/a/b/bar.go".toList = none := by
  decide +kernel

/-- **C94, violated**: an output replaces the file of another one if their paths are the same (C37), and the run succeeds. -/
theorem C94_violated_overwritten : ∃ (packages : List JobPackage) (jobs : List Job), packages = [⟨"p".toList, jobs⟩] ∧
    jobs.map Job.name = ["foo_1".toList, "foo".toList, "foo".toList] ∧
    let r := generate some exOptions "out".toList noFaults packages fun _ => none
    r.ending = .done ∧ r.disk "out/p/foo_1.go".toList = some "C".toList ∧ ∀ j ∈ jobs.head?, j.code = .ok "A".toList :=
  ⟨[⟨"p".toList, [⟨"foo_1".toList, .ok "A".toList⟩, ⟨"foo".toList, .ok "B".toList⟩, ⟨"foo".toList, .ok "C".toList⟩]⟩], _, rfl, rfl, by decide +kernel,
    by decide +kernel, by simp⟩

/-- **C94, violated**: a run that fails takes away the file of an earlier run, for which there is no replacement. -/
theorem C94_violated_lost : ∃ (format : Text → Option Text) (o : GenOptions) (packages : List JobPackage) (d : Disk) (p old : Text), d p = some old ∧
    (generate format o "out".toList noFaults packages d).ending = .failed ∧ (generate format o "out".toList noFaults packages d).disk p = none :=
  ⟨fun _ => none, ⟨"example".toList, false, [], 260⟩, [⟨"c".toList, [⟨"pkg".toList, .ok "package c".toList⟩]⟩], fun _ => some "package c\n".toList,
    "out/c/pkg.go".toList, "package c\n".toList, rfl, by decide +kernel, by decide +kernel⟩

/-- **C94, violated**: for a directory, the option to output only one package has no effect: whatever it is, all packages are written. -/
theorem C94_violated_only (format : Text → Option Text) (o : GenOptions) (root : Text) (hroot : root ≠ ['-']) (faults : Nat → Faults)
    (packages : List JobPackage) (d : Disk) (only : Text) :
    generate format { o with only := only } root faults packages d = generate format o root faults packages d := by
  have hw : ∀ (jobs : List (Text × Job)) (i : Nat) (m : PathCounts) (d : Disk),
      writeJobs format { o with only := only } root faults i jobs m d = writeJobs format o root faults i jobs m d := by
    intro jobs
    induction jobs with
    | nil => intros; rfl
    | cons a jobs ih =>
      intro i m d
      obtain ⟨pkg, j⟩ := a
      rw [writeJobs, writeJobs]
      cases j.code with
      | error e => rfl
      | ok code =>
        dsimp only
        have : writeToFile format { o with only := only } (faults i) root pkg j.name code m d = writeToFile format o (faults i) root pkg j.name code m d := rfl
        rw [this]
        split
        · exact ih ..
        · rfl
  unfold generate
  rw [if_neg hroot, if_neg hroot]
  dsimp only
  rw [hw]

/-- A package that is not the one asked for is written. -/
example : (generate some { exOptions with only := "c".toList } "out".toList noFaults exPackages fun _ => none).disk "out/a/b/foo.go".toList =
    some "type Foo".toList := by
  decide +kernel

example : let r := generate some { exOptions with only := "c".toList } ['-'] noFaults exPackages fun _ => none
    r.ending = .done ∧ r.printed = "package ctype Bar".toList := by
  decide +kernel

/-- A disk that is full after three characters: the file is removed again. -/
example : let r := generate some exOptions "out".toList (fun i => ⟨true, true, if i = 1 then some 3 else none, true⟩) exPackages fun _ => none
    r.ending = .failed ∧ r.disk "out/a/b/pkg.go".toList = some "package b".toList ∧ r.disk "out/a/b/foo.go".toList = none := by
  decide +kernel

end Verif
