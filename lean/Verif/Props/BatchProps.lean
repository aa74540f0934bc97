import Verif.Model.Batch
import Verif.Props.CmdLineProps
import Verif.Props.GrowProps

/-!
# What the batch files produce (C223)
-/

set_option linter.unusedSectionVars false

namespace SmoothRF

/-- C223: six of the batch files call scripts that are in main/; every line of the other seven calls a script
that is not there. -/
theorem C223_missing : ∀ b ∈ batches,
    if b.1 ∈ ["analysis_block.sh", "analysis_block2.sh", "analysis_block2_moon.sh",
      "analysis_block2_moon_impurity.sh", "analysis_block_moon.sh", "depth_run_prgeng_adam.sh"]
    then ∀ line ∈ b.2, ∃ p ∈ mainDir, line.head? = some p
    else ∀ line ∈ b.2, ∃ p, p ∉ mainDir ∧ line.head? = some p := by
  have h : ∀ b ∈ batches,
      if b.1 ∈ ["analysis_block.sh", "analysis_block2.sh", "analysis_block2_moon.sh",
        "analysis_block2_moon_impurity.sh", "analysis_block_moon.sh", "depth_run_prgeng_adam.sh"]
      then ∀ line ∈ b.2, line.head?.any (fun p => decide (p ∈ mainDir)) = true
      else ∀ line ∈ b.2, line.head?.any (fun p => decide (p ∉ mainDir)) = true := by
    decide +kernel
  intro b hb
  have := h b hb
  split_ifs at this ⊢ with hm
  · intro line hl
    have := this line hl
    cases e : line.head? with
    | none => rw [e] at this; simp at this
    | some p => rw [e] at this; exact ⟨p, by simpa using this, rfl⟩
  · intro line hl
    have := this line hl
    cases e : line.head? with
    | none => rw [e] at this; simp at this
    | some p => rw [e] at this; exact ⟨p, by simpa using this, rfl⟩

/-- An environment for the third script, which no batch file calls. -/
noncomputable abbrev exNoClean : CleanEnv ℝ :=
  ⟨id, fun _ => true, some .cls, [], [], fun _ _ => 0, fun _ => [], none, fun _ _ => 0, fun _ => [], 0, []⟩

/-- C223: none of the 82 lines of the four classification batch files writes any file, whatever the data, the
seed, the fitted forest and the tuning rows. -/
theorem C223_class {C : ℕ} {int : String → Option ℤ} {date : String} (str : ℝ → String) (sq : ℝ → ℝ)
    (approxOne : ℝ → Bool) (env : CmdArgs → BothEnv ℝ C)
    (hce : ∀ a, (env a).ce = fun _ => sgdCe sq approxOne) (hsq : ∀ a, (env a).sqrt = sq)
    (hrf : ∀ a, (env a).rf = some .cls) (hst : ∀ a q, (env a).steps q ≠ []) (seed : ℕ)
    {adams : List (AdamOpts ℝ)} (hA : adams ≠ []) (hn : adams.Nodup)
    {s1 s2 : Stages (List (String × JobRecord ℝ))}
    (hs1 : ∀ a dict, s1.jobs a .cls dict = runJobs (analysisJob str (env a))
      (analysisGrid (decide (a.dStyle = some "impurity")) .cls seed adams) dict)
    (hs2 : ∀ a dict, s2.jobs a .cls dict = runJobs (bothJob str (env a)) (bothGrid .cls seed adams) dict) :
    ∀ b ∈ batches, b.1 ∈ ["analysis_block2.sh", "analysis_block2_moon.sh", "analysis_block2_moon_impurity.sh",
      "analysis_block_moon.sh"] → ∀ line ∈ b.2,
      ∃ out, runLine int date (if line.head? = some "analysis.py" then s1 else s2) seed line = some out ∧
        out.files = [] := by
  have hform : ∀ b ∈ batches, b.1 ∈ ["analysis_block2.sh", "analysis_block2_moon.sh",
      "analysis_block2_moon_impurity.sh", "analysis_block_moon.sh"] → ∀ line ∈ b.2,
      line = ["analysis.py", "microsoft", "class", "10"] ∨ line = ["analysis.py", "moon", "class", "10"] ∨
      line = ["analysis.py", "moon", "class", "10", "impurity", "45"] ∨
      line = ["analysis_both.py", "moon", "class", "10", "45"] := by
    decide +kernel
  have key := fun p d rest => C210_class_writes_nothing (int := int) (p := p) (d := d) (n := "10") (date := date)
    (rest := rest) str sq approxOne env hce hsq hrf hst (fun _ => exNoClean) (fun _ => rfl) seed hA hn (s1 := s1)
    (s2 := s2) (s3 := ⟨fun _ _ => .ok [], fun _ _ => .ok [],
      fun _ _ dict => runJobs (cleanJob str exNoClean) (cleanGrid .cls seed adams) dict⟩) hs1 hs2 (fun _ _ => rfl)
  intro b hb hb1 line hl
  rcases hform b hb hb1 line hl with rfl | rfl | rfl | rfl
  · exact ⟨_, rfl, (key _ _ _).1⟩
  · exact ⟨_, rfl, (key _ _ _).1⟩
  · exact ⟨_, rfl, (key _ _ _).1⟩
  · exact ⟨_, rfl, (key _ _ _).2.1⟩

theorem dedup_double {A B : ℕ → String} (hA : ∀ i j, A i = A j → i = j) (hB : ∀ i j, B i = B j → i = j)
    (hAB : ∀ i j, A i ≠ B j) (seeds : List ℕ) :
    ((seeds.flatMap fun i => [A i, B i]).dedup).length = 2 * seeds.dedup.length := by
  have hp : (seeds.flatMap fun i => [A i, B i]).dedup.Perm (seeds.dedup.map A ++ seeds.dedup.map B) := by
    refine (List.perm_ext_iff_of_nodup (List.nodup_dedup _) ?_).2 fun x => ?_
    · refine List.nodup_append.2 ⟨(List.nodup_dedup _).map fun i j => hA i j, (List.nodup_dedup _).map fun i j => hB i j,
        ?_⟩
      intro a ha b hb e
      obtain ⟨i, -, rfl⟩ := List.mem_map.1 ha
      obtain ⟨j, -, rfl⟩ := List.mem_map.1 hb
      exact hAB i j e
    · simp only [List.mem_dedup, List.mem_flatMap, List.mem_append, List.mem_map, List.mem_cons, List.not_mem_nil,
        or_false]
      constructor
      · rintro ⟨i, hi, rfl | rfl⟩
        · exact .inl ⟨i, hi, rfl⟩
        · exact .inr ⟨i, hi, rfl⟩
      · rintro (⟨i, hi, rfl⟩ | ⟨i, hi, rfl⟩)
        · exact ⟨i, hi, .inl rfl⟩
        · exact ⟨i, hi, .inr rfl⟩
  rw [hp.length_eq, List.length_append, List.length_map, List.length_map]
  omega

/-- C223: the regression batch file repeats one line. Runs that end normally leave two files for every
different seed: runs with the same seed overwrite each other. -/
theorem C223_repeats {D : Type} {int : String → Option ℤ} {n : ℤ} (hi : int "10" = some n) {date : String}
    {s : ℕ → Stages D} {seeds : List ℕ} {outs : List (RunOut D)}
    (h : seeds.mapM (fun i => runLine int date (s i) i ["analysis.py", "microsoft", "reg", "10"]) = some outs)
    (hok : ∀ o ∈ outs, o.result = .ok ()) :
    ("analysis_block.sh", List.replicate 21 ["analysis.py", "microsoft", "reg", "10"]) ∈ batches ∧
      (filesLeft outs).length = 2 * seeds.dedup.length := by
  refine ⟨by decide +kernel, ?_⟩
  let a : CmdArgs := ⟨"microsoft", "reg", n, some "depth", none⟩
  have hargs : argsAnalysis int ["analysis.py", "microsoft", "reg", "10"] = .ok a :=
    (C210_arguments_analysis int _ a).2 ⟨_, _, [], rfl, hi, .inl ⟨rfl, rfl, rfl⟩⟩
  have hg : GoodArgs a := ⟨by simp [a], .inl rfl⟩
  have hnames : outs.flatMap (fun o => o.files.map Prod.fst) =
      seeds.flatMap fun i => [interimFile a i, finalAnalysis a i] := by
    induction seeds generalizing outs with
    | nil =>
      cases h
      rfl
    | cons i seeds ih =>
      rw [List.mapM_cons] at h
      simp only [Option.bind_eq_bind, Option.bind_eq_some_iff, Option.pure_def, Option.some.injEq] at h
      obtain ⟨o, ho, os, hos, rfl⟩ := h
      rw [List.flatMap_cons, List.flatMap_cons, ih hos fun x hx => hok x (by simp [hx])]
      congr 1
      have hr := hok o (by simp)
      have ho' : mainAnalysis int ["analysis.py", "microsoft", "reg", "10"] (s i) i = o := by
        simpa [runLine] using ho
      obtain ⟨files, res⟩ := o
      simp only at hr
      subst hr
      unfold mainAnalysis at ho'
      rcases C210_files ho' with ⟨-, e, he⟩ | ⟨a', k, d, h1, -, h2, -, -, h3⟩
      · cases he
      · rw [hargs] at h1
        cases h1
        have hk : k = .reg := by
          rcases h2 with ⟨-, h2⟩ | ⟨h2, -⟩
          · exact h2
          · exact absurd h2 (by simp [a])
        rcases h3 with ⟨-, -, d1, -, ⟨-, e, -, he⟩ | ⟨d2, -, hf, -⟩⟩ | ⟨h3, -⟩
        · cases he
        · rw [hf]
          rfl
        · exact absurd ⟨rfl, hk⟩ h3
  unfold filesLeft
  rw [hnames]
  have names := fun i j => C210_final_names hg hg i j (st := "depth") (st' := "depth") (.inl rfl) (.inl rfl)
    (date := "") (date' := "") (by decide) (by decide)
  refine dedup_double (fun i j e => ((C210_interim_shared hg hg i j).1 e).2.2.2)
    (fun i j e => ((names i j).1 rfl rfl e).1.2.2.2.2)
    (fun i j e => (names j i).2.2.2.2.2.2.1 rfl e.symm) seeds

/-- C223: the remaining batch file calls main/1.0 with the tuning option "ob", which the script does not know:
the run is the one for "oob" in every number, under another file name. -/
theorem C223_ob {K : Type} [Field K] [LinearOrder K] [IsStrictOrderedRing K] {C : ℕ} {str : K → String} {s : ScriptArgs K}
    (hs : s.tuning = "ob") {e : GrowEnv K C} {f : String} {cells : List (List (GrowCell K))}
    (h : growScript str s e = .ok (f, cells)) :
    (∃ line ∈ batches.getLast!.2, line = ["1.0-depth_run_adam.py", "prgeng", "10", s.tuning, "c", "eb", "p",
      "standard", "rf", "tree", "10000", "1"]) ∧
    ∃ f', growScript str { s with tuning := "oob" } e = .ok (f', cells) ∧ f' ≠ f := by
  refine ⟨⟨_, List.mem_singleton.2 rfl, by rw [hs]⟩, ?_⟩
  unfold growScript at h ⊢
  obtain ⟨g, h1, h⟩ := bind_ok h
  obtain ⟨cs, h2, h⟩ := bind_ok h
  cases h
  have h1' : scriptGrowArgs { s with tuning := "oob" } = .ok { g with tuning := "oob" } ∧ g.tuning = s.tuning := by
    unfold scriptGrowArgs at h1 ⊢
    obtain ⟨a1, e1, h1⟩ := bind_ok h1
    obtain ⟨a2, e2, h1⟩ := bind_ok h1
    obtain ⟨a3, e3, h1⟩ := bind_ok h1
    simp only [bind, Except.bind, e1, e2, e3] at h1 ⊢
    by_cases hb : s.s = "eb"
    · simp only [hb, if_true] at h1 ⊢
      cases e4 : scriptOption s.batch "tree" "all" "single-tree" "all-trees" with
      | error x => rw [e4] at h1; cases h1
      | ok a4 =>
        rw [e4] at h1
        simp only at h1 ⊢
        cases e5 : scriptOption s.init "rf" "r" "rf-init" "random-init" with
        | error x => rw [e5] at h1; cases h1
        | ok a5 =>
          rw [e5] at h1
          cases h1
          exact ⟨rfl, rfl⟩
    · simp only [hb, if_false] at h1 ⊢
      cases h1
      exact ⟨rfl, rfl⟩
  rw [h1'.1]
  have ht : g.tuning = "ob" := h1'.2.trans hs
  rw [C131_tuning_typo (by rw [ht]; decide) (by rw [ht]; decide)] at h2
  refine ⟨scriptFile str { s with tuning := "oob" }, ?_, ?_⟩
  · simp only [bind, Except.bind]
    rw [h2]
    rfl
  · intro e0
    have := congrArg (fun x : String => x.length) e0
    unfold scriptFile at this
    simp only [String.length_append, hs] at this
    have l1 : "oob".length = 3 := by decide
    have l2 : "ob".length = 2 := by decide
    omega

/-- Three lines of the regression batch file, two of them with the same seed, leave four files. -/
example : (match [7, 7, 8].mapM (fun i => runLine exInt "" (exStages false) i
      ["analysis.py", "microsoft", "reg", "10"]) with
    | some outs => some (outs.all fun o => match o.result with | .ok _ => true | .error _ => false, filesLeft outs)
    | none => none) =
    some (true, ["data/microsoft_reg_10_7.pkl", "data/microsoft_depth_reg_10_7.pkl", "data/microsoft_reg_10_8.pkl",
      "data/microsoft_depth_reg_10_8.pkl"]) := by
  decide +kernel

/-- The options of depth_run_prgeng_adam.sh, but level-based (fewer numbers to check). -/
abbrev exBatchArgs : ScriptArgs ℚ :=
  ⟨"prgeng", 10, "ob", "c", "lb", "p", "standard", "rf", "tree", 10000, 1, true⟩

/-- The run returns 480 cells under the name with "ob". -/
example : (match growScript (fun _ => "1") exBatchArgs exGrowEnv with
    | .ok (f, cells) =>
      some (decide (f = "images/data_vis_depth_prgeng_trees10_ob_c_level-base_distance-p_tree_depth_dist-standard.csv"), cells.map List.length)
    | .error _ => none) = some (true, List.replicate 24 20) := by
  decide +kernel

end SmoothRF
