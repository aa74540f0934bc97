import Verif.Model.CmdLine
import Verif.Props.ExperimentProps
import Verif.Props.GrowProps

/-! # C210: command line and result files of main/analysis*.py -/

set_option linter.unusedSectionVars false

namespace SmoothRF
open SkTree

/-! ### Reading the arguments -/

theorem pyGet_ok_iff {α : Type} {l : List α} {i : ℕ} {a : α} : pyGet l i = .ok a ↔ l[i]? = some a := by
  unfold pyGet
  cases l[i]? with
  | none => simp
  | some b => simp

theorem readThree_iff {int : String → Option ℤ} {argv : List String} {d k : String} {n : ℤ} :
    readThree int argv = .ok (d, k, n) ↔
      ∃ p s rest, argv = p :: d :: k :: s :: rest ∧ int s = some n := by
  constructor
  · intro h
    unfold readThree at h
    obtain ⟨d', h1, h⟩ := bind_ok h
    obtain ⟨k', h2, h⟩ := bind_ok h
    obtain ⟨s, h3, h⟩ := bind_ok h
    rw [pyGet_ok_iff] at h1 h2 h3
    cases hs : int s with
    | none => rw [hs] at h; cases h
    | some m =>
      rw [hs] at h
      cases h
      match argv, h1, h2, h3 with
      | p :: a :: b :: c :: rest, h1, h2, h3 =>
        simp only [List.getElem?_cons_succ, List.getElem?_cons_zero, Option.some.injEq] at h1 h2 h3
        subst h1 h2 h3
        exact ⟨p, c, rest, rfl, hs⟩
  · rintro ⟨p, s, rest, rfl, hs⟩
    simp [readThree, pyGet, hs, bind, Except.bind, pure, Except.pure]

/-- C210: analysis.py accepts exactly the command lines with a data set, a kind, an integer, then nothing
or one of the two words "depth" and "impurity" and anything; the fifth argument is the number of levels
if it is an integer and is dropped silently if it is not. -/
theorem C210_arguments_analysis (int : String → Option ℤ) (argv : List String) (a : CmdArgs) :
    argsAnalysis int argv = .ok a ↔
      ∃ p s rest, argv = p :: a.dataSet :: a.kind :: s :: rest ∧ int s = some a.nTrees ∧
        ((rest = [] ∧ a.dStyle = some "depth" ∧ a.levels = none) ∨
          ∃ w rest', rest = w :: rest' ∧ (w = "depth" ∨ w = "impurity") ∧ a.dStyle = some w ∧
            a.levels = rest'.head?.bind int) := by
  constructor
  · intro h
    unfold argsAnalysis at h
    obtain ⟨⟨d, k, n⟩, h1, h⟩ := bind_ok h
    obtain ⟨p, s, rest, rfl, hs⟩ := readThree_iff.1 h1
    cases rest with
    | nil =>
      have h' : Except.ok (⟨d, k, n, some "depth", none⟩ : CmdArgs) = (.ok a : Except PyErr CmdArgs) := h
      cases h'
      exact ⟨p, s, [], rfl, hs, .inl ⟨rfl, rfl, rfl⟩⟩
    | cons w rest' =>
      by_cases hw : w ∉ ["impurity", "depth"]
      · simp only [List.getElem?_cons_succ, List.getElem?_cons_zero, if_pos hw] at h
        cases h
      · simp only [List.getElem?_cons_succ, List.getElem?_cons_zero, if_neg hw] at h
        cases h
        refine ⟨p, s, _, rfl, hs, .inr ⟨w, rest', rfl, ?_, rfl, ?_⟩⟩
        · simp only [List.mem_cons, List.not_mem_nil, or_false, not_not] at hw
          exact hw.symm
        · cases rest' <;> rfl
  · rintro ⟨p, s, rest, rfl, hs, h⟩
    obtain ⟨d, k, n, st, lv⟩ := a
    have h1 : readThree int (p :: d :: k :: s :: rest) = .ok (d, k, n) :=
      readThree_iff.2 ⟨p, s, rest, rfl, hs⟩
    unfold argsAnalysis
    simp only at h1 ⊢
    rw [h1]
    rcases h with ⟨rfl, h2, h3⟩ | ⟨w, rest', rfl, hw, h2, h3⟩
    · simp only at h2 h3
      subst h2 h3
      rfl
    · simp only at h2 h3
      subst h2 h3
      have hw' : ¬ (w ∉ ["impurity", "depth"]) := by rcases hw with rfl | rfl <;> decide
      simp only [bind, Except.bind, List.getElem?_cons_succ, List.getElem?_cons_zero, if_neg hw']
      cases rest' <;> rfl

/-- C210: the other two scripts accept exactly the command lines with a data set, a kind and an integer;
the fourth argument is the number of levels if it is an integer and is dropped silently if it is not. -/
theorem C210_arguments_both (int : String → Option ℤ) (argv : List String) (a : CmdArgs) :
    argsBoth int argv = .ok a ↔
      ∃ p s rest, argv = p :: a.dataSet :: a.kind :: s :: rest ∧ int s = some a.nTrees ∧
        a.dStyle = none ∧ a.levels = rest.head?.bind int := by
  constructor
  · intro h
    unfold argsBoth at h
    obtain ⟨⟨d, k, n⟩, h1, h⟩ := bind_ok h
    obtain ⟨p, s, rest, rfl, hs⟩ := readThree_iff.1 h1
    cases h
    refine ⟨p, s, rest, rfl, hs, rfl, ?_⟩
    cases rest <;> rfl
  · rintro ⟨p, s, rest, rfl, hs, h2, h3⟩
    obtain ⟨d, k, n, st, lv⟩ := a
    simp only at h2 h3
    subst h2 h3
    have h1 : readThree int (p :: d :: k :: s :: rest) = .ok (d, k, n) :=
      readThree_iff.2 ⟨p, s, rest, rfl, hs⟩
    unfold argsBoth
    simp only at h1 ⊢
    rw [h1]
    cases rest <;> rfl

/-- C210: a number of levels directly after the number of trees (the example in the header of
analysis_both.py) is an error for analysis.py, whatever else is right. -/
theorem C210_analysis_levels_first {D : Type} (int : String → Option ℤ) (p d k s l : String)
    (rest : List String) (n : ℤ) (hs : int s = some n) (hl : l ≠ "depth" ∧ l ≠ "impurity")
    (st : Stages D) (seed : ℕ) :
    mainAnalysis int (p :: d :: k :: s :: l :: rest) st seed = ⟨[], .error .valueError⟩ := by
  have h1 : readThree int (p :: d :: k :: s :: l :: rest) = .ok (d, k, n) :=
    readThree_iff.2 ⟨p, s, _, rfl, hs⟩
  have h2 : argsAnalysis int (p :: d :: k :: s :: l :: rest) = .error .valueError := by
    unfold argsAnalysis
    rw [h1]
    have hw : l ∉ ["impurity", "depth"] := by simp [hl.1, hl.2]
    simp only [bind, Except.bind, List.getElem?_cons_succ, List.getElem?_cons_zero, if_pos hw]
  unfold mainAnalysis runScript
  rw [h2]

/-! ### What is written -/

/-- The four names `pull_data` knows; "titantic" is the spelling in the source. -/
theorem C210_data_sets (d k : String) :
    (pullData d k).isSome ↔ d ∈ ["microsoft", "moon", "prgeng", "titantic"] := by
  unfold pullData
  simp only [List.mem_cons, List.not_mem_nil, or_false]
  split_ifs with h1 h2 h3 h4 h5 h6 <;> simp_all

/-- C210: a run writes the interim file (the two scripts with the `smooth_all` stage, regression) and then
the final file, or stops before one of the two writes; the final file is there exactly when the script
ends normally. -/
theorem C210_files {D : Type} {args : Except PyErr CmdArgs} {wols : Bool} {final : CmdArgs → ℕ → String}
    {s : Stages D} {seed : ℕ} {files : List (String × D)} {res : Except PyErr Unit}
    (h : runScript args wols final s seed = ⟨files, res⟩) :
    (files = [] ∧ ∃ e, res = .error e) ∨
    ∃ a k d, args = .ok a ∧ a.dataSet ∈ ["microsoft", "moon", "prgeng", "titantic"] ∧
      ((a.kind = "reg" ∧ k = .reg) ∨ (a.kind = "class" ∧ k = .cls)) ∧ 1 ≤ a.nTrees ∧ s.base a k = .ok d ∧
      ((wols = true ∧ k = .reg ∧ ∃ d1, s.wols a d = .ok d1 ∧
          ((files = [(interimFile a seed, d1)] ∧ ∃ e, s.jobs a k d1 = .error e ∧ res = .error e) ∨
            ∃ d2, s.jobs a k d1 = .ok d2 ∧ files = [(interimFile a seed, d1), (final a seed, d2)] ∧
              res = .ok ())) ∨
        (¬ (wols = true ∧ k = .reg) ∧ ∃ d2, s.jobs a k d = .ok d2 ∧ files = [(final a seed, d2)] ∧
          res = .ok ())) := by
  unfold runScript at h
  cases args with
  | error e => cases h; exact .inl ⟨rfl, e, rfl⟩
  | ok a =>
    simp only at h
    cases hp : pullData a.dataSet a.kind with
    | none => rw [hp] at h; cases h; exact .inl ⟨rfl, _, rfl⟩
    | some src =>
      rw [hp] at h
      simp only at h
      have hds := (C210_data_sets a.dataSet a.kind).1 (by rw [hp]; rfl)
      cases hk : modelType a.kind with
      | error e => rw [hk] at h; cases h; exact .inl ⟨rfl, e, rfl⟩
      | ok k =>
        rw [hk] at h
        simp only at h
        have hkk : (a.kind = "reg" ∧ k = .reg) ∨ (a.kind = "class" ∧ k = .cls) := by
          unfold modelType at hk
          split_ifs at hk with h1 h2
          · cases hk; exact .inl ⟨h1, rfl⟩
          · cases hk; exact .inr ⟨h2, rfl⟩
        by_cases hn : a.nTrees < 1
        · rw [if_pos hn] at h; cases h; exact .inl ⟨rfl, _, rfl⟩
        rw [if_neg hn] at h
        cases hb : s.base a k with
        | error e => rw [hb] at h; cases h; exact .inl ⟨rfl, e, rfl⟩
        | ok d =>
          rw [hb] at h
          simp only at h
          by_cases hw : wols = true ∧ k = .reg
          · rw [if_pos hw] at h
            cases hd : s.wols a d with
            | error e => rw [hd] at h; cases h; exact .inl ⟨rfl, e, rfl⟩
            | ok d1 =>
              rw [hd] at h
              simp only [runTail] at h
              refine .inr ⟨a, k, d, rfl, hds, hkk, by omega, hb, .inl ⟨hw.1, hw.2, d1, hd, ?_⟩⟩
              cases hj : s.jobs a k d1 with
              | error e => rw [hj] at h; cases h; exact .inl ⟨rfl, e, rfl, rfl⟩
              | ok d2 => rw [hj] at h; cases h; exact .inr ⟨d2, rfl, rfl, rfl⟩
          · rw [if_neg hw] at h
            simp only [runTail] at h
            cases hj : s.jobs a k d with
            | error e => rw [hj] at h; cases h; exact .inl ⟨rfl, e, rfl⟩
            | ok d2 =>
              rw [hj] at h
              cases h
              exact .inr ⟨a, k, d, rfl, hds, hkk, by omega, hb, .inr ⟨hw, d2, hj, rfl, rfl⟩⟩

/-- C210: the correctly spelt "titanic", like every name `pull_data` does not know, ends all three scripts
with TypeError (`None` is unpacked) and nothing is written. -/
theorem C210_unknown_data {D : Type} {args : Except PyErr CmdArgs} {a : CmdArgs} (ha : args = .ok a)
    (h : a.dataSet ∉ ["microsoft", "moon", "prgeng", "titantic"]) (wols : Bool)
    (final : CmdArgs → ℕ → String) (s : Stages D) (seed : ℕ) :
    runScript args wols final s seed = ⟨[], .error .typeError⟩ := by
  have hp : pullData a.dataSet a.kind = none := by
    cases hp : pullData a.dataSet a.kind with
    | none => rfl
    | some x => exact absurd ((C210_data_sets a.dataSet a.kind).1 (by rw [hp]; rfl)) h
  unfold runScript
  rw [ha]
  simp only [hp]

/-- C210: no combination of data set and kind is refused: the check that "prgeng" needs "reg" and
"titantic" needs "class" has no effect, the run reaches the fit with the other kind. -/
theorem C210_mismatch_runs {D : Type} {args : Except PyErr CmdArgs} {a : CmdArgs} (ha : args = .ok a)
    (h : (a.dataSet = "prgeng" ∧ a.kind = "class") ∨ (a.dataSet = "titantic" ∧ a.kind = "reg"))
    (hn : 1 ≤ a.nTrees) (final : CmdArgs → ℕ → String) (s : Stages D) (seed : ℕ) {d d1 d2 : D}
    (hb : ∀ k, s.base a k = .ok d) (hw : s.wols a d = .ok d1) (hj : ∀ k x, s.jobs a k x = .ok d2)
    (wols : Bool) :
    (runScript args wols final s seed).result = .ok () := by
  have hn' : ¬ a.nTrees < 1 := by omega
  unfold runScript
  rw [ha]
  rcases h with ⟨h1, h2⟩ | ⟨h1, h2⟩
  · have hp : pullData a.dataSet a.kind = some ("prgeng.txt", false) := by rw [h1, h2]; decide
    have hm : modelType a.kind = .ok .cls := by rw [h2]; rfl
    simp only [hp, hm, if_neg hn', hb]
    simp [runTail, hj]
  · have hp : pullData a.dataSet a.kind = some ("titanic3.csv", false) := by rw [h1, h2]; decide
    have hm : modelType a.kind = .ok .reg := by rw [h2]; rfl
    simp only [hp, hm, if_neg hn', hb]
    cases wols <;> simp [runTail, hj, hw]

/-! ### File names -/

/-- Fields joined by `_`. -/
def uJoin : List Char → List (List Char) → List Char
  | a, [] => a
  | a, b :: l => a ++ '_' :: uJoin b l

theorem uJoin_inj : ∀ {l m : List (List Char)} {a b : List Char}, '_' ∉ a → '_' ∉ b →
    (∀ x ∈ l, '_' ∉ x) → (∀ x ∈ m, '_' ∉ x) → uJoin a l = uJoin b m → a = b ∧ l = m
  | [], [], a, b, _, _, _, _, h => ⟨h, rfl⟩
  | [], c :: m, a, b, ha, _, _, _, h => by
    simp only [uJoin] at h
    exact absurd (by rw [h]; simp) ha
  | c :: l, [], a, b, _, hb, _, _, h => by
    simp only [uJoin] at h
    exact absurd (by rw [← h]; simp) hb
  | c :: l, e :: m, a, b, ha, hb, hl, hm, h => by
    simp only [uJoin] at h
    obtain ⟨h1, h2⟩ := split_at ha hb h
    obtain ⟨h3, h4⟩ := uJoin_inj (hl _ (by simp)) (hm _ (by simp)) (fun x hx => hl x (by simp [hx]))
      (fun x hx => hm x (by simp [hx])) h2
    exact ⟨h1, by rw [h3, h4]⟩

theorem intStr_chars {k : ℤ} {c : Char} (h : c ∈ (intStr k).toList) : c.isDigit = true ∨ c = '-' := by
  cases k with
  | ofNat n => exact .inl (repr_digits h)
  | negSucc n =>
    rw [intStr, String.toList_append, List.mem_append] at h
    rcases h with h | h
    · right
      have e : "-".toList = ['-'] := rfl
      rw [e] at h
      simpa using h
    · exact .inl (repr_digits h)

theorem intStr_under (k : ℤ) : '_' ∉ (intStr k).toList := fun h => by
  rcases intStr_chars h with h | h
  · exact absurd h (by decide)
  · exact absurd h (by decide)

theorem intStr_inj {a b : ℤ} (h : (intStr a).toList = (intStr b).toList) : a = b := by
  have hd : ∀ n : ℕ, '-' ∉ n.repr.toList := fun n hx => absurd (repr_digits hx) (by decide)
  have e : "-".toList = ['-'] := rfl
  cases a with
  | ofNat n =>
    cases b with
    | ofNat m => rw [Nat.repr_injective (String.toList_injective h)]
    | negSucc m =>
      rw [intStr, intStr, String.toList_append, e] at h
      exact absurd (by rw [h]; simp) (hd n)
  | negSucc n =>
    cases b with
    | ofNat m =>
      rw [intStr, intStr, String.toList_append, e] at h
      exact absurd (by rw [← h]; simp) (hd m)
    | negSucc m =>
      rw [intStr, intStr, String.toList_append, String.toList_append, e] at h
      have h2 := Nat.repr_injective (String.toList_injective (List.append_cancel_left h))
      simp only [Nat.add_right_cancel_iff] at h2
      rw [h2]

/-- The fields of a final name after the mark of the script: levels and kind. -/
def kindFields (kind : String) : Option ℤ → List (List Char)
  | none => [kind.toList]
  | some k => ["levels".toList, (intStr k).toList ++ kind.toList]

/-- The four kinds of result files. -/
inductive FileKind
  | interim
  | analysis (style : String)
  | both
  | clean (date : String)

/-- The fields of a name. -/
def fileFields (f : FileKind) (a : CmdArgs) (seed : ℕ) : List (List Char) :=
  match f with
  | .interim => [a.kind.toList, (intStr a.nTrees).toList, seed.repr.toList ++ ".pkl".toList]
  | .analysis st => st.toList ::
      (kindFields a.kind a.levels ++ [(intStr a.nTrees).toList, seed.repr.toList ++ ".pkl".toList])
  | .both => "both ".toList ::
      (kindFields a.kind a.levels ++ [(intStr a.nTrees).toList, seed.repr.toList ++ ".pkl".toList])
  | .clean date => "both".toList :: "clean".toList ::
      (kindFields a.kind a.levels ++ [(intStr a.nTrees).toList, seed.repr.toList, date.toList ++ ".pkl".toList])

theorem interimFile_fields (a : CmdArgs) (seed : ℕ) :
    (interimFile a seed).toList = uJoin ("data/".toList ++ a.dataSet.toList) (fileFields .interim a seed) := by
  simp [interimFile, fileFields, uJoin, String.toList_append]

theorem finalAnalysis_fields {a : CmdArgs} {st : String} (hst : a.dStyle = some st) (seed : ℕ) :
    (finalAnalysis a seed).toList =
      uJoin ("data/".toList ++ a.dataSet.toList) (fileFields (.analysis st) a seed) := by
  cases hl : a.levels <;>
    simp [finalAnalysis, fileFields, kindFields, levelsFile, uJoin, String.toList_append, hst, hl]

theorem finalBoth_fields (a : CmdArgs) (seed : ℕ) :
    (finalBoth a seed).toList = uJoin ("data/".toList ++ a.dataSet.toList) (fileFields .both a seed) := by
  cases hl : a.levels <;>
    simp [finalBoth, fileFields, kindFields, levelsFile, uJoin, String.toList_append, hl]

theorem finalClean_fields (date : String) (a : CmdArgs) (seed : ℕ) :
    (finalClean date a seed).toList =
      uJoin ("data/".toList ++ a.dataSet.toList) (fileFields (.clean date) a seed) := by
  cases hl : a.levels <;>
    simp [finalClean, fileFields, kindFields, levelsFile, uJoin, String.toList_append, hl]

/-- Arguments with which a script gets as far as writing. -/
structure GoodArgs (a : CmdArgs) : Prop where
  dataSet : a.dataSet ∈ ["microsoft", "moon", "prgeng", "titantic"]
  kind : a.kind = "reg" ∨ a.kind = "class"

theorem kindFields_inj {k k' : String} (hk : k = "reg" ∨ k = "class") (hk' : k' = "reg" ∨ k' = "class")
    {l l' : Option ℤ} {x y : List (List Char)} (hxy : x.length = y.length)
    (h : kindFields k l ++ x = kindFields k' l' ++ y) : k = k' ∧ l = l' ∧ x = y := by
  cases l with
  | none =>
    cases l' with
    | none =>
      simp only [kindFields, List.singleton_append, List.cons.injEq] at h
      exact ⟨String.toList_injective h.1, rfl, h.2⟩
    | some b =>
      have := congrArg List.length h
      simp only [kindFields, List.length_append, List.length_cons, List.length_nil] at this
      omega
  | some a =>
    cases l' with
    | none =>
      have := congrArg List.length h
      simp only [kindFields, List.length_append, List.length_cons, List.length_nil] at this
      omega
    | some b =>
      simp only [kindFields, List.cons_append, List.nil_append, List.cons.injEq, true_and] at h
      obtain ⟨h1, h2⟩ := h
      have hl := congrArg List.getLast? h1
      have e1 : "reg".toList = ['r', 'e', 'g'] := rfl
      have e2 : "class".toList = ['c', 'l', 'a', 's', 's'] := rfl
      rcases hk with rfl | rfl <;> rcases hk' with rfl | rfl
      · exact ⟨rfl, by rw [intStr_inj (List.append_cancel_right h1)], h2⟩
      · rw [e1, e2] at hl; simp at hl
      · rw [e1, e2] at hl; simp at hl
      · exact ⟨rfl, by rw [intStr_inj (List.append_cancel_right h1)], h2⟩

theorem goodArgs_under {a : CmdArgs} (h : GoodArgs a) :
    '_' ∉ "data/".toList ++ a.dataSet.toList ∧ '_' ∉ a.kind.toList := by
  have t : ∀ s ∈ ["microsoft", "moon", "prgeng", "titantic"], '_' ∉ "data/".toList ++ s.toList := by decide
  refine ⟨t _ h.dataSet, ?_⟩
  rcases h.kind with h | h <;> rw [h] <;> decide

theorem kindFields_under {a : CmdArgs} (h : GoodArgs a) : ∀ x ∈ kindFields a.kind a.levels, '_' ∉ x := by
  have hk := (goodArgs_under h).2
  cases hl : a.levels with
  | none => simpa [kindFields] using hk
  | some k =>
    intro x hx
    simp only [kindFields, List.mem_cons, List.not_mem_nil, or_false] at hx
    rcases hx with rfl | rfl
    · decide
    · rw [List.mem_append]
      rintro (h | h)
      · exact intStr_under _ h
      · exact hk h

/-- Marks of a file kind without separators. -/
def FileKind.Clean : FileKind → Prop
  | .interim => True
  | .analysis st => st = "depth" ∨ st = "impurity"
  | .both => True
  | .clean date => '_' ∉ date.toList

theorem fileFields_under {f : FileKind} (hf : f.Clean) {a : CmdArgs} (h : GoodArgs a) (seed : ℕ) :
    ∀ x ∈ fileFields f a seed, '_' ∉ x := by
  have hk := (goodArgs_under h).2
  have hkf := kindFields_under h
  have hn := intStr_under a.nTrees
  have hs : '_' ∉ seed.repr.toList := repr_under seed
  have hp : '_' ∉ ".pkl".toList := by decide
  have hsp : '_' ∉ seed.repr.toList ++ ".pkl".toList := by
    rw [List.mem_append]; exact fun h => h.elim hs hp
  intro x hx
  cases f with
  | interim =>
    simp only [fileFields, List.mem_cons, List.not_mem_nil, or_false] at hx
    rcases hx with rfl | rfl | rfl
    · exact hk
    · exact hn
    · exact hsp
  | analysis st =>
    simp only [fileFields, List.mem_cons, List.mem_append, List.not_mem_nil, or_false] at hx
    rcases hx with rfl | hx | rfl | rfl
    · rcases hf with hf | hf <;> rw [hf] <;> decide
    · exact hkf _ hx
    · exact hn
    · exact hsp
  | both =>
    simp only [fileFields, List.mem_cons, List.mem_append, List.not_mem_nil, or_false] at hx
    rcases hx with rfl | hx | rfl | rfl
    · decide
    · exact hkf _ hx
    · exact hn
    · exact hsp
  | clean date =>
    simp only [fileFields, List.mem_cons, List.mem_append, List.not_mem_nil, or_false] at hx
    rcases hx with rfl | rfl | hx | rfl | rfl | rfl
    · decide
    · decide
    · exact hkf _ hx
    · exact hn
    · exact hs
    · rw [List.mem_append]
      exact fun h => h.elim hf hp

theorem kindFields_length (k : String) (l : Option ℤ) :
    (kindFields k l).length = 1 ∨ (kindFields k l).length = 2 := by
  cases l
  · exact .inl rfl
  · exact .inr rfl

/-- C210: the final files of the three scripts. Two runs that get as far as writing share a final file only
if they are runs of the same script with the same data set, kind, number of trees, levels and seed, and for
analysis.py the same distance style, for analysis_both_clean.py the same day. No final file is the interim
file of any run. -/
theorem C210_final_names {a b : CmdArgs} (ha : GoodArgs a) (hb : GoodArgs b) (seed seed' : ℕ)
    {st st' : String} (hst : st = "depth" ∨ st = "impurity") (hst' : st' = "depth" ∨ st' = "impurity")
    {date date' : String} (hd : '_' ∉ date.toList) (hd' : '_' ∉ date'.toList) :
    let same := a.dataSet = b.dataSet ∧ a.kind = b.kind ∧ a.nTrees = b.nTrees ∧ a.levels = b.levels ∧
      seed = seed'
    (a.dStyle = some st → b.dStyle = some st' → finalAnalysis a seed = finalAnalysis b seed' →
      same ∧ st = st') ∧
    (finalBoth a seed = finalBoth b seed' → same) ∧
    (finalClean date a seed = finalClean date' b seed' → same ∧ date = date') ∧
    (a.dStyle = some st → finalAnalysis a seed ≠ finalBoth b seed') ∧
    (a.dStyle = some st → finalAnalysis a seed ≠ finalClean date b seed') ∧
    finalBoth a seed ≠ finalClean date b seed' ∧
    (a.dStyle = some st → finalAnalysis a seed ≠ interimFile b seed') ∧
    finalBoth a seed ≠ interimFile b seed' ∧
    finalClean date a seed ≠ interimFile b seed' := by
  intro same
  have key : ∀ (f g : FileKind), f.Clean → g.Clean →
      uJoin ("data/".toList ++ a.dataSet.toList) (fileFields f a seed) =
        uJoin ("data/".toList ++ b.dataSet.toList) (fileFields g b seed') →
      a.dataSet = b.dataSet ∧ fileFields f a seed = fileFields g b seed' := by
    intro f g hf hg h
    obtain ⟨h1, h2⟩ := uJoin_inj (goodArgs_under ha).1 (goodArgs_under hb).1
      (fileFields_under hf ha seed) (fileFields_under hg hb seed') h
    exact ⟨String.toList_injective (List.append_cancel_left h1), h2⟩
  have rep : ∀ {x y : ℕ}, x.repr.toList = y.repr.toList → x = y := fun h =>
    Nat.repr_injective (String.toList_injective h)
  have la := kindFields_length a.kind a.levels
  have lb := kindFields_length b.kind b.levels
  have tail : ∀ {x y : List (List Char)}, x.length = y.length →
      kindFields a.kind a.levels ++ x = kindFields b.kind b.levels ++ y →
      a.kind = b.kind ∧ a.levels = b.levels ∧ x = y := fun hxy h =>
    kindFields_inj ha.kind hb.kind hxy h
  refine ⟨fun h1 h2 h => ?_, fun h => ?_, fun h => ?_, fun h1 h => ?_, fun h1 h => ?_, fun h => ?_,
    fun h1 h => ?_, fun h => ?_, fun h => ?_⟩ <;> have h := congrArg String.toList h
  · rw [finalAnalysis_fields h1, finalAnalysis_fields h2] at h
    obtain ⟨e1, e2⟩ := key (.analysis st) (.analysis st') hst hst' h
    simp only [fileFields, List.cons.injEq] at e2
    obtain ⟨f1, f2, f3⟩ := tail (by rfl) e2.2
    simp only [List.cons.injEq, and_true] at f3
    exact ⟨⟨e1, f1, intStr_inj f3.1, f2, rep (List.append_cancel_right f3.2)⟩,
      String.toList_injective e2.1⟩
  · rw [finalBoth_fields, finalBoth_fields] at h
    obtain ⟨e1, e2⟩ := key .both .both trivial trivial h
    simp only [fileFields, List.cons.injEq, true_and] at e2
    obtain ⟨f1, f2, f3⟩ := tail (by rfl) e2
    simp only [List.cons.injEq, and_true] at f3
    exact ⟨e1, f1, intStr_inj f3.1, f2, rep (List.append_cancel_right f3.2)⟩
  · rw [finalClean_fields, finalClean_fields] at h
    obtain ⟨e1, e2⟩ := key (.clean date) (.clean date') hd hd' h
    simp only [fileFields, List.cons.injEq, true_and] at e2
    obtain ⟨f1, f2, f3⟩ := tail (by rfl) e2
    simp only [List.cons.injEq, and_true] at f3
    exact ⟨⟨e1, f1, intStr_inj f3.1, f2, rep f3.2.1⟩,
      String.toList_injective (List.append_cancel_right f3.2.2)⟩
  · rw [finalAnalysis_fields h1, finalBoth_fields] at h
    obtain ⟨-, e2⟩ := key (.analysis st) .both hst trivial h
    simp only [fileFields, List.cons.injEq] at e2
    rcases hst with rfl | rfl <;> exact absurd e2.1 (by decide)
  · rw [finalAnalysis_fields h1, finalClean_fields] at h
    obtain ⟨-, e2⟩ := key (.analysis st) (.clean date) hst hd h
    simp only [fileFields, List.cons.injEq] at e2
    rcases hst with rfl | rfl <;> exact absurd e2.1 (by decide)
  · rw [finalBoth_fields, finalClean_fields] at h
    obtain ⟨-, e2⟩ := key .both (.clean date) trivial hd h
    simp only [fileFields, List.cons.injEq] at e2
    exact absurd e2.1 (by decide)
  · rw [finalAnalysis_fields h1, interimFile_fields] at h
    obtain ⟨-, e2⟩ := key (.analysis st) .interim hst trivial h
    have := congrArg List.length e2
    simp only [fileFields, List.length_cons, List.length_append, List.length_nil] at this
    omega
  · rw [finalBoth_fields, interimFile_fields] at h
    obtain ⟨-, e2⟩ := key .both .interim trivial trivial h
    have := congrArg List.length e2
    simp only [fileFields, List.length_cons, List.length_append, List.length_nil] at this
    omega
  · rw [finalClean_fields, interimFile_fields] at h
    obtain ⟨-, e2⟩ := key (.clean date) .interim hd trivial h
    have := congrArg List.length e2
    simp only [fileFields, List.length_cons, List.length_append, List.length_nil] at this
    omega

/-- C210: the interim file is named after the data set, the kind, the number of trees and the seed only.
Runs that differ in the distance style, in the levels, or in which of the two scripts they are, write to the
same interim file. -/
theorem C210_interim_shared {a b : CmdArgs} (ha : GoodArgs a) (hb : GoodArgs b) (seed seed' : ℕ) :
    interimFile a seed = interimFile b seed' ↔
      a.dataSet = b.dataSet ∧ a.kind = b.kind ∧ a.nTrees = b.nTrees ∧ seed = seed' := by
  constructor
  · intro h
    have h := congrArg String.toList h
    rw [interimFile_fields, interimFile_fields] at h
    obtain ⟨h1, h2⟩ := uJoin_inj (goodArgs_under ha).1 (goodArgs_under hb).1
      (fileFields_under (f := .interim) trivial ha seed) (fileFields_under (f := .interim) trivial hb seed') h
    simp only [fileFields, List.cons.injEq, and_true] at h2
    exact ⟨String.toList_injective (List.append_cancel_left h1), String.toList_injective h2.1,
      intStr_inj h2.2.1, Nat.repr_injective (String.toList_injective (List.append_cancel_right h2.2.2))⟩
  · rintro ⟨h1, h2, h3, rfl⟩
    unfold interimFile
    rw [h1, h2, h3]

/-! ### Runs that never reach the final file -/

variable {K : Type} [Field K] [LinearOrder K] [IsStrictOrderedRing K] {C : ℕ}

theorem bothJobRun_needs_levels {e : BothEnv K C} (hl : e.levels = none) {p : BothParams K}
    (hp : p.impurity = true) (r : List (SkTree K C) × List K × List K) : bothJobRun e p ≠ .ok r := by
  intro h
  unfold bothJobRun at h
  rw [if_pos hp] at h
  obtain ⟨o, h2, -⟩ := bind_ok h
  obtain ⟨kind', src, ge, -, -, g, -⟩ := smoothImp_ok h2
  rw [hl] at g
  unfold gammaEtaForestImp at g
  obtain ⟨lv, g1, -⟩ := bind_ok g
  cases g1

theorem analysisJob_ok {str : K → String} {e : BothEnv K C} {p : BothParams K} {o : String × JobRecord K}
    (h : analysisJob str e p = .ok o) :
    o.1 = analysisName str e.levels p ∧ ∃ r, bothJobRun e p = .ok r ∧ npMinE r.2.2 = .ok o.2.bestOob ∧
      assessRf e.rf r.1 e.test = .ok o.2.score ∧ o.2.info = r.2.1 := by
  unfold analysisJob at h
  obtain ⟨r, h1, h⟩ := bind_ok h
  obtain ⟨m, h2, h⟩ := bind_ok h
  obtain ⟨s, h3, h⟩ := bind_ok h
  cases h
  exact ⟨rfl, r, h1, h2, h3, rfl⟩

/-- C210: analysis_both.py with the arguments in the order its header gives, a distance style before the
levels: the style is taken for the levels and dropped, the run goes on without levels and never writes its
final file. At most the interim file is left. -/
theorem C210_header_order {int : String → Option ℤ} {p d k n st : String} {rest : List String}
    (hst : int st = none) (str : K → String) (env : CmdArgs → Kind → BothEnv K C)
    (henv : ∀ a k, a.levels = none → (env a k).levels = none) (seed : ℕ) {adams : List (AdamOpts K)}
    (hA : adams ≠ []) (hn : adams.Nodup) {s : Stages (List (String × JobRecord K))}
    (hs : ∀ a k dict, s.jobs a k dict = runJobs (bothJob str (env a k)) (bothGrid k seed adams) dict) :
    (∃ e, (mainBoth int (p :: d :: k :: n :: st :: rest) s seed).result = .error e) ∧
    ∀ f ∈ (mainBoth int (p :: d :: k :: n :: st :: rest) s seed).files, ∃ a,
      argsBoth int (p :: d :: k :: n :: st :: rest) = .ok a ∧ a.levels = none ∧ f.1 = interimFile a seed := by
  obtain ⟨ad, as, rfl⟩ := List.exists_cons_of_ne_nil hA
  have hlev : ∀ a, argsBoth int (p :: d :: k :: n :: st :: rest) = .ok a → a.levels = none := by
    intro a h
    obtain ⟨p', s', rest', e, -, -, hl⟩ := (C210_arguments_both int _ a).1 h
    simp only [List.cons.injEq] at e
    rw [hl, ← e.2.2.2.2]
    exact hst
  have hfail : ∀ a k dict x, a.levels = none → s.jobs a k dict ≠ .ok x := by
    intro a k dict x ha
    rw [hs]
    refine runJobs_fails (p := ⟨true, .standard, true, false, none, true, ad⟩) ?_ (fun o ho => ?_) dict x
    · rw [(bothGrid_spec k seed _ hn).2]
      simp
    · obtain ⟨-, r, r1, -⟩ := bothJob_ok ho
      exact bothJobRun_needs_levels (henv a k ha) rfl r r1
  generalize hout : mainBoth int (p :: d :: k :: n :: st :: rest) s seed = out
  obtain ⟨files, res⟩ := out
  unfold mainBoth at hout
  rcases C210_files hout with ⟨rfl, e, rfl⟩ | ⟨a, k', d', h1, -, -, -, -, h⟩
  · exact ⟨⟨e, rfl⟩, by simp⟩
  · have hl := hlev a h1
    rcases h with ⟨-, -, d1, -, ⟨rfl, e, -, rfl⟩ | ⟨d2, h2, -⟩⟩ | ⟨-, d2, h2, -⟩
    · refine ⟨⟨e, rfl⟩, fun f hf => ⟨a, h1, hl, ?_⟩⟩
      simp only [List.mem_singleton] at hf
      rw [hf]
    · exact absurd h2 (hfail _ _ _ _ hl)
    · exact absurd h2 (hfail _ _ _ _ hl)

/-- C210: analysis.py with "impurity" and no usable number of levels never writes its final file. -/
theorem C210_impurity_needs_levels {int : String → Option ℤ} {argv : List String} {a : CmdArgs}
    (ha : argsAnalysis int argv = .ok a) (hst : a.dStyle = some "impurity") (hlv : a.levels = none)
    (str : K → String) (env : CmdArgs → Kind → BothEnv K C)
    (henv : ∀ a k, a.levels = none → (env a k).levels = none) (seed : ℕ) {adams : List (AdamOpts K)}
    (hA : adams ≠ []) (hn : adams.Nodup) {s : Stages (List (String × JobRecord K))}
    (hs : ∀ a k dict, s.jobs a k dict = runJobs (analysisJob str (env a k))
      (analysisGrid (decide (a.dStyle = some "impurity")) k seed adams) dict) :
    (∃ e, (mainAnalysis int argv s seed).result = .error e) ∧
    ∀ f ∈ (mainAnalysis int argv s seed).files, f.1 = interimFile a seed := by
  obtain ⟨ad, as, rfl⟩ := List.exists_cons_of_ne_nil hA
  have hfail : ∀ k dict x, s.jobs a k dict ≠ .ok x := by
    intro k dict x
    rw [hs]
    refine runJobs_fails (p := ⟨true, .standard, true, false, none, true, ad⟩) ?_ (fun o ho => ?_) dict x
    · unfold analysisGrid
      rw [List.mem_filter, (bothGrid_spec k seed _ hn).2]
      simp [hst]
    · obtain ⟨-, r, r1, -⟩ := analysisJob_ok ho
      exact bothJobRun_needs_levels (henv a k hlv) rfl r r1
  generalize hout : mainAnalysis int argv s seed = out
  obtain ⟨files, res⟩ := out
  unfold mainAnalysis at hout
  rcases C210_files hout with ⟨rfl, e, rfl⟩ | ⟨a', k', d', h1, -, -, -, -, h⟩
  · exact ⟨⟨e, rfl⟩, by simp⟩
  · rw [ha] at h1
    cases h1
    rcases h with ⟨-, -, d1, -, ⟨rfl, e, -, rfl⟩ | ⟨d2, h2, -⟩⟩ | ⟨-, d2, h2, -⟩
    · refine ⟨⟨e, rfl⟩, fun f hf => ?_⟩
      simp only [List.mem_singleton] at hf
      rw [hf]
    · exact absurd h2 (hfail _ _ _)
    · exact absurd h2 (hfail _ _ _)

/-- The cross-entropy jobs raise for both distances. -/
theorem bothJobRun_ce_raises (sq : ℝ → ℝ) (approxOne : ℝ → Bool) {e : BothEnv ℝ C}
    (hce : e.ce = fun _ => sgdCe sq approxOne) (hsq : e.sqrt = sq) (hrf : e.rf = some .cls)
    {p : BothParams ℝ} (hl : p.lossL2 = false) (hst : e.steps p ≠ [])
    (r : List (SkTree ℝ C) × List ℝ × List ℝ) : bothJobRun e p ≠ .ok r := by
  intro h
  unfold bothJobRun at h
  split at h
  · obtain ⟨o, h2, -⟩ := bind_ok h
    rw [hce, hsq, hrf] at h2
    obtain ⟨kind', src, ge, h0, h1, -, -, h4⟩ := smoothImp_ok h2
    cases h0
    have hc := (smoothCheck_ok.1 h1).2.2
    unfold smoothFrom at h4
    obtain ⟨yw, -, h4⟩ := bind_ok h4
    obtain ⟨lamb, -, h4⟩ := bind_ok h4
    obtain ⟨x, h5, -⟩ := bind_ok h4
    unfold smoothOptimise at h5
    rw [if_neg (by simp [bothJobCfg]), if_neg (by simp [bothJobCfg, hl])] at h5
    exact sgdCe_raises _ _ _ _ _ _ _ (by simpa using hc) hst _ h5
  · obtain ⟨o, h2, -⟩ := bind_ok h
    rw [hce, hsq, hrf] at h2
    exact C31_refuted sq approxOne e.forest _ rfl hl hst e.sources ⟨o, h2⟩

/-- A run whose jobs always fail and which has no interim file writes nothing. -/
theorem runScript_none {D : Type} {args : Except PyErr CmdArgs} {wols : Bool}
    {final : CmdArgs → ℕ → String} {s : Stages D} {seed : ℕ}
    (hk : ∀ a, args = .ok a → a.kind = "class") (hj : ∀ a d x, s.jobs a .cls d ≠ .ok x) :
    (runScript args wols final s seed).files = [] ∧
      ∃ e, (runScript args wols final s seed).result = .error e := by
  generalize hout : runScript args wols final s seed = out
  obtain ⟨files, res⟩ := out
  rcases C210_files hout with ⟨rfl, e, rfl⟩ | ⟨a, k', d', h1, -, h2, -, -, h⟩
  · exact ⟨rfl, e, rfl⟩
  · have hkk : k' = .cls := by
      rcases h2 with ⟨h2, -⟩ | ⟨-, h2⟩
      · rw [hk a h1] at h2; exact absurd h2 (by decide)
      · exact h2
    subst hkk
    rcases h with ⟨-, h3, -⟩ | ⟨-, d2, h3, -⟩
    · cases h3
    · exact absurd h3 (hj _ _ _)

/-- C210: with "class" none of the three scripts writes any file, for any data set, number of trees, distance
style and levels: the cross-entropy jobs of the first two raise (C31) and `smooth_clean` refuses
classifiers. -/
theorem C210_class_writes_nothing {int : String → Option ℤ} {p d n date : String} {rest : List String}
    (str : ℝ → String) (sq : ℝ → ℝ) (approxOne : ℝ → Bool) (env : CmdArgs → BothEnv ℝ C)
    (hce : ∀ a, (env a).ce = fun _ => sgdCe sq approxOne) (hsq : ∀ a, (env a).sqrt = sq)
    (hrf : ∀ a, (env a).rf = some .cls) (hst : ∀ a q, (env a).steps q ≠ [])
    (cenv : CmdArgs → CleanEnv ℝ) (hrf' : ∀ a, (cenv a).rf = some .cls) (seed : ℕ)
    {adams : List (AdamOpts ℝ)} (hA : adams ≠ []) (hn : adams.Nodup)
    {s1 s2 s3 : Stages (List (String × JobRecord ℝ))}
    (hs1 : ∀ a dict, s1.jobs a .cls dict = runJobs (analysisJob str (env a))
      (analysisGrid (decide (a.dStyle = some "impurity")) .cls seed adams) dict)
    (hs2 : ∀ a dict, s2.jobs a .cls dict = runJobs (bothJob str (env a)) (bothGrid .cls seed adams) dict)
    (hs3 : ∀ a dict, s3.jobs a .cls dict = runJobs (cleanJob str (cenv a)) (cleanGrid .cls seed adams) dict) :
    (mainAnalysis int (p :: d :: "class" :: n :: rest) s1 seed).files = [] ∧
    (mainBoth int (p :: d :: "class" :: n :: rest) s2 seed).files = [] ∧
    (mainClean int date (p :: d :: "class" :: n :: rest) s3 seed).files = [] := by
  obtain ⟨ad, as, rfl⟩ := List.exists_cons_of_ne_nil hA
  have k1 : ∀ a, argsAnalysis int (p :: d :: "class" :: n :: rest) = .ok a → a.kind = "class" := by
    intro a h
    obtain ⟨p', s', rest', e, -⟩ := (C210_arguments_analysis int _ a).1 h
    simp only [List.cons.injEq] at e
    exact e.2.2.1.symm
  have k2 : ∀ a, argsBoth int (p :: d :: "class" :: n :: rest) = .ok a → a.kind = "class" := by
    intro a h
    obtain ⟨p', s', rest', e, -⟩ := (C210_arguments_both int _ a).1 h
    simp only [List.cons.injEq] at e
    exact e.2.2.1.symm
  refine ⟨(runScript_none k1 fun a dict x => ?_).1, (runScript_none k2 fun a dict x => ?_).1,
    (runScript_none k2 fun a dict x => ?_).1⟩
  · rw [hs1]
    refine runJobs_fails (p := ⟨decide (a.dStyle = some "impurity"), .standard, true, false, none, false, ad⟩)
      ?_ (fun o ho => ?_) dict x
    · unfold analysisGrid
      rw [List.mem_filter, (bothGrid_spec .cls seed _ hn).2]
      simp
    · obtain ⟨-, r, r1, -⟩ := analysisJob_ok ho
      exact bothJobRun_ce_raises sq approxOne (hce a) (hsq a) (hrf a) rfl (hst a _) r r1
  · rw [hs2]
    exact C126_class_never_returns sq approxOne (env a) (hce a) (hsq a) (hrf a) (hst a) seed (by simp) hn dict x
  · rw [hs3, C124_classifier str (cenv a) (by rw [hrf' a]; decide) .cls seed _ dict]
    simp

/-! ### Labels of analysis.py -/

/-- C210: the labels of analysis.py's jobs differ whenever the jobs differ in more than the loss. -/
theorem C210_analysis_labels {str : K → String} (hs : GoodStr str) (levels : Option ℕ) (p q : BothParams K) :
    analysisName str levels p = analysisName str levels q ↔ { p with lossL2 := q.lossL2 } = q := by
  constructor
  · intro h
    have h := congrArg String.toList h
    unfold analysisName at h
    simp only [String.toList_append, List.append_assoc] at h
    have h := List.append_cancel_left (List.append_cancel_left h)
    have hd : ∀ (x : Bool) (y : Topo.Style), ',' ∉ (distStr x).toList ++ ((bothLevelStr levels).toList ++
        ("_dist:".toList ++ (styleStr y).toList)) := by
      intro x y
      simp only [List.mem_append, not_or]
      exact ⟨distStr_comma _, bothLevelStr_comma _, by decide, styleStr_comma _⟩
    have re : ∀ a b c d e : List Char, a ++ (b ++ (c ++ (d ++ e))) = (a ++ (b ++ (c ++ d))) ++ e := by
      intros; simp
    rw [re, re (distStr q.impurity).toList] at h
    obtain ⟨h1, h⟩ := split_field (by decide) (hd _ _) (hd _ _) h
    obtain ⟨h3, h⟩ := split_field (by decide) (boolStr_comma _) (boolStr_comma _) h
    obtain ⟨h4, h⟩ := split_field (by decide) (boolStr_comma _) (boolStr_comma _) h
    obtain ⟨h5, h⟩ := split_field (by decide) (seedStr_comma _) (seedStr_comma _) h
    have h6 := Option.some.inj (adamStr_inj hs h)
    have e1 : p.impurity = q.impurity := by
      have hh := congrArg List.head? h1
      revert hh
      cases p.impurity <;> cases q.impurity
      · exact fun _ => rfl
      · intro hh; exact absurd hh (by
          have a : ∀ l, ((distStr false).toList ++ l).head? = some 'd' := fun l => rfl
          have b : ∀ l, ((distStr true).toList ++ l).head? = some 'i' := fun l => rfl
          rw [a, b]; decide)
      · intro hh; exact absurd hh (by
          have a : ∀ l, ((distStr false).toList ++ l).head? = some 'd' := fun l => rfl
          have b : ∀ l, ((distStr true).toList ++ l).head? = some 'i' := fun l => rfl
          rw [a, b]; decide)
      · exact fun _ => rfl
    rw [e1] at h1
    have e2 := styleStr_inj (List.append_cancel_left (List.append_cancel_left (List.append_cancel_left h1)))
    have e3 := boolStr_inj h3
    have e4 := boolStr_inj h4
    have e5 := seedStr_inj h5
    cases p; cases q
    simp only [Bool.not_inj_iff] at e1 e2 e3 e4 e5 h6
    subst e1 e2 e3 e4 e5 h6
    rfl
  · intro h
    rw [← h]
    rfl

/-- C210: a regression run of analysis.py that ends normally leaves, after the interim file, a final file
whose dictionary holds what the interim one held and exactly one record per job of its distance style, equal
to what that job returns. -/
theorem C210_analysis_records {int : String → Option ℤ} {argv : List String} {str : K → String}
    (hstr : GoodStr str) (env : CmdArgs → Kind → BothEnv K C) (seed : ℕ) {adams : List (AdamOpts K)}
    (hn : adams.Nodup) {s : Stages (List (String × JobRecord K))}
    (hs : ∀ a k dict, s.jobs a k dict = runJobs (analysisJob str (env a k))
      (analysisGrid (decide (a.dStyle = some "impurity")) k seed adams) dict)
    (hw : ∀ a d d1, s.wols a d = .ok d1 → ∀ x ∈ d1, ¬ "smooth_element_based,".toList <+: x.1.toList)
    {a : CmdArgs} (ha : argsAnalysis int argv = .ok a) (hk : a.kind = "reg")
    (h : (mainAnalysis int argv s seed).result = .ok ()) :
    ∃ d1 recs, (mainAnalysis int argv s seed).files =
        [(interimFile a seed, d1), (finalAnalysis a seed, d1 ++ recs)] ∧
      List.Forall₂ (fun p x => x.1 = "smooth_element_based," ++ analysisName str (env a .reg).levels p ∧
        analysisJob str (env a .reg) p = .ok (analysisName str (env a .reg).levels p, x.2))
        ((bothGrid .reg seed adams).filter fun p => p.impurity == decide (a.dStyle = some "impurity")) recs := by
  generalize hout : mainAnalysis int argv s seed = out at h ⊢
  obtain ⟨files, res⟩ := out
  simp only at h
  subst h
  unfold mainAnalysis at hout
  rcases C210_files hout with ⟨-, e, h⟩ | ⟨a', k', d', h1, -, h2, -, -, h⟩
  · cases h
  · rw [ha] at h1
    cases h1
    have hkk : k' = .reg := by
      rcases h2 with ⟨-, h2⟩ | ⟨h2, -⟩
      · exact h2
      · rw [hk] at h2; exact absurd h2 (by decide)
    subst hkk
    rcases h with ⟨-, -, d1, h3, ⟨-, e, -, h4⟩ | ⟨d2, h4, h5, -⟩⟩ | ⟨h3, -⟩
    · cases h4
    · rw [hs] at h4
      obtain ⟨hg, hm⟩ := bothGrid_spec (K := K) .reg seed adams hn
      obtain ⟨recs, r1, r2⟩ := runJobs_records (fun _ _ ho => (analysisJob_ok ho).1) (fun p hp q hq h => by
          have := (C210_analysis_labels hstr (env a .reg).levels p q).1 h
          have hp := List.mem_filter.1 hp
          have hq := List.mem_filter.1 hq
          have l1 := ((hm p).1 hp.1).2.2.1 rfl
          have l2 := ((hm q).1 hq.1).2.2.1 rfl
          rw [← this, l2, ← l1]) (hg.filter _) (hw _ _ _ h3) h4
      exact ⟨d1, recs, by rw [h5, r1], r2⟩
    · exact absurd ⟨rfl, rfl⟩ h3

/-! ### Examples -/

/-- Reading digits. -/
def exInt (s : String) : Option ℤ :=
  if s.toList ≠ [] ∧ s.toList.all Char.isDigit then
    some (s.toList.foldl (fun n c => 10 * n + (c.toNat - 48 : ℤ)) 0)
  else none

/-- Stages that only count how far the script got. -/
def exStages (fail : Bool) : Stages ℕ where
  base _ _ := .ok 1
  wols _ d := .ok (d + 1)
  jobs _ _ d := if fail then .error .assertionError else .ok (d + 10)

/-- The example of analysis.py's header, and the same without the levels. -/
example : argsAnalysis exInt ["analysis.py", "moon", "class", "10", "impurity", "10"] =
      .ok ⟨"moon", "class", 10, some "impurity", some 10⟩ ∧
    argsAnalysis exInt ["analysis.py", "moon", "class", "10"] =
      .ok ⟨"moon", "class", 10, some "depth", none⟩ := by
  constructor
  · exact (C210_arguments_analysis _ _ _).2 ⟨_, _, _, rfl, by decide +kernel,
      .inr ⟨_, _, rfl, .inr rfl, rfl, by decide +kernel⟩⟩
  · exact (C210_arguments_analysis _ _ _).2 ⟨_, _, _, rfl, by decide +kernel, .inl ⟨rfl, rfl, rfl⟩⟩

/-- The example of analysis_both.py's header, and its format line followed literally: the levels are gone. -/
example : argsBoth exInt ["analysis_both.py", "moon", "class", "10", "10"] =
      .ok ⟨"moon", "class", 10, none, some 10⟩ ∧
    argsBoth exInt ["analysis_both.py", "moon", "class", "10", "impurity", "10"] =
      .ok ⟨"moon", "class", 10, none, none⟩ := by
  constructor
  · exact (C210_arguments_both _ _ _).2 ⟨_, _, _, rfl, by decide +kernel, rfl, by decide +kernel⟩
  · exact (C210_arguments_both _ _ _).2 ⟨_, _, _, rfl, by decide +kernel, rfl, by decide +kernel⟩

/-- The files of a run that ends normally and of one whose jobs raise. -/
example : (mainAnalysis exInt ["analysis.py", "moon", "reg", "10"] (exStages false) 7).files =
      [("data/moon_reg_10_7.pkl", 2), ("data/moon_depth_reg_10_7.pkl", 12)] ∧
    (mainBoth exInt ["analysis_both.py", "moon", "reg", "10", "5"] (exStages false) 7).files =
      [("data/moon_reg_10_7.pkl", 2), ("data/moon_both _levels_5reg_10_7.pkl", 12)] ∧
    (mainBoth exInt ["analysis_both.py", "moon", "reg", "10", "5"] (exStages true) 7).files =
      [("data/moon_reg_10_7.pkl", 2)] ∧
    (mainClean exInt "Nov-17-2026" ["analysis_both_clean.py", "microsoft", "reg", "10", "20"]
      (exStages false) 7).files = [("data/microsoft_both_clean_levels_20reg_10_7_Nov-17-2026.pkl", 11)] ∧
    (mainClean exInt "Nov-17-2026" ["analysis_both_clean.py", "titanic", "class", "10", "20"]
      (exStages false) 7).files = [] := by
  decide +kernel

/-- Arguments and marks as in `C210_final_names`; runs with other levels or another style of the same seed
share their interim file and have different final files. -/
example : GoodArgs ⟨"moon", "reg", 10, some "depth", none⟩ ∧ GoodArgs ⟨"moon", "reg", 10, some "impurity", some 5⟩ ∧
    interimFile ⟨"moon", "reg", 10, some "depth", none⟩ 7 =
      interimFile ⟨"moon", "reg", 10, some "impurity", some 5⟩ 7 ∧
    finalAnalysis ⟨"moon", "reg", 10, some "depth", none⟩ 7 ≠
      finalAnalysis ⟨"moon", "reg", 10, some "impurity", some 5⟩ 7 ∧
    '_' ∉ "Nov-17-2026".toList :=
  ⟨⟨by decide, .inl rfl⟩, ⟨by decide, .inl rfl⟩, by decide +kernel, by decide +kernel, by decide⟩

/-- Stages with the jobs of analysis.py and analysis_both.py on the stump. -/
def exJobStages (both : Bool) : Stages (List (String × JobRecord ℚ)) where
  base _ _ := .ok [("rf_base", ⟨5 / 2, [], 0⟩)]
  wols _ d := .ok (dictSet d (wolsName true true) ⟨1 / 2, [1 / 2, 1 / 2], 0⟩)
  jobs a k d :=
    if both then
      runJobs (bothJob exStr { exBothEnv with levels := a.levels.map Int.toNat })
        (bothGrid k 7 [⟨1/10, 1/2, 1/2, 1⟩]) d
    else
      runJobs (analysisJob exStr { exBothEnv with levels := a.levels.map Int.toNat })
        (analysisGrid (decide (a.dStyle = some "impurity")) k 7 [⟨1/10, 1/2, 1/2, 1⟩]) d

/-- A run of analysis.py that ends normally: the final file adds the 24 jobs of its distance style. With
"impurity" and no levels only the interim file is left, as it is by analysis_both.py called as its header
says. -/
example : ((mainAnalysis exInt ["analysis.py", "moon", "reg", "1", "depth"] (exJobStages false) 7).files.map
      fun f => (f.1, f.2.length)) = [("data/moon_reg_1_7.pkl", 2), ("data/moon_depth_reg_1_7.pkl", 26)] ∧
    ((mainAnalysis exInt ["analysis.py", "moon", "reg", "1", "impurity"] (exJobStages false) 7).files.map
      fun f => (f.1, f.2.length)) = [("data/moon_reg_1_7.pkl", 2)] ∧
    ((mainBoth exInt ["analysis_both.py", "moon", "reg", "1", "impurity", "2"] (exJobStages true) 7).files.map
      fun f => (f.1, f.2.length)) = [("data/moon_reg_1_7.pkl", 2)] ∧
    exInt "impurity" = none := by
  decide +kernel

end SmoothRF
