import Verif.Model.CmdLine

/-!
# bash_scripts

The batch files directly in bash_scripts (old_bash is left out): each changes to main/ and calls ipython on
one script per line. The shell goes on after a failed line.
-/

namespace SmoothRF

/-- The python files in main/. -/
def mainDir : List String :=
  ["1.0-depth_run_adam.py", "1.1-depth_run_class_adam.py", "1.2-compare_depth_vs_smooth.py", "analysis.py",
    "analysis_both.py", "analysis_both_clean.py", "pytorch_example.py"]

/-- The batch files with their lines after `ipython`, in order. -/
def batches : List (String × List (List String)) :=
  [("analysis_block.sh", List.replicate 21 ["analysis.py", "microsoft", "reg", "10"]),
    ("analysis_block2.sh", List.replicate 21 ["analysis.py", "microsoft", "class", "10"]),
    ("analysis_block2_moon.sh", List.replicate 21 ["analysis.py", "moon", "class", "10"]),
    ("analysis_block2_moon_impurity.sh",
      List.replicate 20 ["analysis.py", "moon", "class", "10", "impurity", "45"]),
    ("analysis_block_moon.sh", List.replicate 20 ["analysis_both.py", "moon", "class", "10", "45"]),
    ("depth_run_class_moon_microsft_adam.sh",
      [["depth_run_class_adam.py", "moon", "10", "oob", "c", "eb", "p", "standard", "l2", "rf", "tree", "10000", "1"],
        ["depth_run_class_adam.py", "microsoft", "10", "oob", "c", "eb", "p", "standard", "ce", "rf", "tree",
          "10000", "1"],
        ["depth_run_class_adam.py", "microsoft", "10", "oob", "c", "eb", "p", "standard", "l2", "rf", "tree",
          "10000", "1"]]),
    ("depth_run_class_moon_microsft_adam_300.sh",
      [["depth_run_class_adam.py", "moon", "300", "oob", "c", "eb", "p", "standard", "l2", "rf", "tree", "10000",
          "1"],
        ["depth_run_class_adam.py", "moon", "300", "oob", "c", "eb", "p", "standard", "ce", "rf", "tree", "10000",
          "1"],
        ["depth_run_class_adam.py", "microsoft", "300", "oob", "c", "eb", "p", "standard", "ce", "rf", "tree",
          "10000", "1"],
        ["depth_run_class_adam.py", "microsoft", "300", "oob", "c", "eb", "p", "standard", "l2", "rf", "tree",
          "10000", "1"]]),
    ("depth_run_eb_10_ob_c_l_diff_depth.sh",
      [["depth_run.py", "microsoft", "10", "oob", "c", "eb", "l", "standard", "rf", "tree", "10000", "1"],
        ["depth_run.py", "microsoft", "10", "oob", "c", "eb", "l", "max", "rf", "tree", "10000", "1"],
        ["depth_run.py", "microsoft", "10", "oob", "c", "eb", "l", "min", "rf", "tree", "10000", "1"]]),
    ("depth_run_eb_10_ob_c_p_diff_depth.sh",
      [["depth_run.py", "microsoft", "10", "oob", "c", "eb", "p", "standard", "rf", "tree", "10000", "1"],
        ["depth_run.py", "microsoft", "10", "oob", "c", "eb", "p", "max", "rf", "tree", "10000", "1"],
        ["depth_run.py", "microsoft", "10", "oob", "c", "eb", "p", "min", "rf", "tree", "10000", "1"]]),
    ("depth_run_microsoft_adam.sh",
      [["depth_run_adam.py", "microsoft", "10", "ob", "c", "eb", "p", "standard", "rf", "tree", "10000", "1"]]),
    ("depth_run_microsoft_adam_300.sh",
      [["depth_run_adam.py", "microsoft", "300", "ob", "c", "eb", "p", "standard", "rf", "tree", "10000", "1"]]),
    ("depth_run_moon_test.py",
      [["depth_run_class.py", "moon", "10", "oob", "c", "eb", "p", "standard", "ce", "rf", "tree", "10000", ".01"],
        ["depth_run_class.py", "moon", "10", "oob", "c", "eb", "p", "standard", "ce", "rf", "tree", "10000", ".1"],
        ["depth_run_class.py", "moon", "10", "oob", "c", "eb", "p", "standard", "ce", "rf", "tree", "10000",
          "10"]]),
    ("depth_run_prgeng_adam.sh",
      [["1.0-depth_run_adam.py", "prgeng", "10", "ob", "c", "eb", "p", "standard", "rf", "tree", "10000", "1"]])]

/-- A line that calls one of the three analysis scripts; `none` for any other script. -/
def runLine {D : Type} (int : String → Option ℤ) (date : String) (s : Stages D) (seed : ℕ) (line : List String) :
    Option (RunOut D) :=
  match line.head? with
  | none => none
  | some p =>
    if p = "analysis.py" then some (mainAnalysis int line s seed)
    else if p = "analysis_both.py" then some (mainBoth int line s seed)
    else if p = "analysis_both_clean.py" then some (mainClean int date line s seed)
    else none

/-- Names of the files left by some runs: a later file replaces an earlier one of the same name. -/
def filesLeft {D : Type} (outs : List (RunOut D)) : List String :=
  (outs.flatMap fun o => o.files.map Prod.fst).dedup

end SmoothRF
