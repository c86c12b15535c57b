import Verif.Exp.OptionsProps

/-!
# Concrete command lines for C96 and C97
-/

namespace Verif.Exp.Cmd.Demo

open Spec

/-- `-d 3 --time=60 -Tdata/iris.csv --depth 4 -H -1` -/
def reqs : List Req := [⟨.depth, "3".toList, .short⟩, ⟨.limit, "60".toList, .eq 4⟩, ⟨.train, "data/iris.csv".toList, .glued⟩,
  ⟨.depth, " 4".toList, .long 5⟩, ⟨.header, "-1".toList, .short⟩]

example : argvOf reqs = ["-d", "3", "--time=60", "-Tdata/iris.csv", "--depth", " 4", "-H", "-1"].map String.toList := by decide +kernel

theorem reqs_ok : ∀ r ∈ reqs, r.Ok := by
  intro r hr
  simp only [reqs, List.mem_cons, List.not_mem_nil, or_false] at hr
  rcases hr with rfl | rfl | rfl | rfl | rfl
  · exact trivial
  · show Opt.limit.Unique 4
    decide +kernel
  · show "data/iris.csv".toList ≠ []
    decide
  · show Opt.depth.Unique 5
    decide +kernel
  · exact trivial

theorem reqs_fine : ∀ r ∈ reqs, r.Fine := by
  intro r hr
  simp only [reqs, List.mem_cons, List.not_mem_nil, or_false] at hr
  rcases hr with rfl | rfl | rfl | rfl | rfl
  · exact fun _ => ⟨3, by decide +kernel⟩
  · exact fun _ => ⟨60, by decide +kernel⟩
  · intro h; cases h
  · exact fun _ => ⟨4, by decide +kernel⟩
  · exact fun _ => ⟨-1, by decide +kernel⟩

/-- The settings of this command line, computed by the model and by C96. -/
def result : Settings := ⟨"data/iris.csv".toList, [], 4, -1, 60, 20, [','], none, "results/".toList⟩

example : settings (argvOf reqs ++ ["x".toList, "-d".toList, "7".toList]) = .ok result := by decide +kernel

example : ∃ s, settings (argvOf reqs ++ ["x".toList, "-d".toList, "7".toList]) = .ok s ∧ s.depth = 4 ∧ s.timeLimit = 60 ∧ s.header = none := by
  obtain ⟨s, h, -, -, -, h4, h5, -, h7, -⟩ := C96_settings reqs_ok reqs_fine (.positional "x".toList ["-d".toList, "7".toList] (by decide))
  refine ⟨s, h, h5.trans (by decide +kernel), h7.trans (by decide +kernel), h4.trans (by decide +kernel)⟩

/-- The order of different options does not matter. -/
example : settings (argvOf reqs ++ []) = settings (argvOf (reqs.drop 1 ++ [⟨.train, "data/iris.csv".toList, .short⟩]) ++ []) :=
  C96_order reqs_ok reqs_fine (fun r hr => by
    rcases List.mem_append.1 hr with h | h
    · exact reqs_ok r (List.mem_of_mem_drop h)
    · rw [List.mem_singleton.1 h]; exact trivial) (fun r hr => by
    rcases List.mem_append.1 hr with h | h
    · exact reqs_fine r (List.mem_of_mem_drop h)
    · rw [List.mem_singleton.1 h]; intro h; cases h) .nil .nil (by intro o; cases o <;> decide +kernel)

/-- `--t 60` is ambiguous, `--help` is unknown, `-d` needs a value, `-x` is unknown. -/
example : settings (argvOf reqs ++ ["--t".toList, "60".toList]) = .error (.exit 2) :=
  C96_misuse reqs_ok (.word "t".toList [] _ (by decide) (by decide) (Or.inl rfl) (by decide +kernel))

example : settings (argvOf reqs ++ ["--help".toList]) = .error (.exit 2) :=
  C96_misuse reqs_ok (.word "help".toList [] _ (by decide) (by decide) (Or.inl rfl) (by decide +kernel))

example : settings (argvOf reqs ++ ["-d".toList]) = .error (.exit 2) := C96_misuse reqs_ok (.missing .depth)

example : settings (argvOf reqs ++ ["--depth".toList]) = .error (.exit 2) := C96_misuse reqs_ok (.missingLong .depth 5 (by decide +kernel))

example : settings (argvOf reqs ++ ["-xd".toList]) = .error (.exit 2) :=
  C96_misuse reqs_ok (.letter 'x' "d".toList [] (by decide) (by decide) (by decide +kernel))

example : settings (argvOf reqs ++ (["-h".toList] ++ (argvOf reqs ++ []))) = .error (.exit 0) :=
  C96_help (fun r hr => (List.mem_append.1 hr).elim (reqs_ok r) (reqs_ok r)) reqs_fine .nil

example : settings (argvOf reqs ++ (["-d".toList, "two".toList] ++ (argvOf reqs ++ []))) = .error (.raised .valueError) :=
  C96_value (r := ⟨.depth, "two".toList, .short⟩) (fun r hr => (List.mem_append.1 hr).elim (reqs_ok r) (reqs_ok r)) trivial reqs_fine .nil rfl
    (by decide +kernel)

example : pyInt " -1_000 ".toList = some (-1000) ∧ pyInt "1__0".toList = none ∧ pyInt "3.5".toList = none ∧ pyInt [] = none := by decide +kernel

/-! ## The result file -/

example : resultsFile result = "results/T_iris.csv_d_4_results.csv".toList := by decide +kernel

/-- **The settings do not determine the result file**: experiments that differ in the directory of the training file, the time limit, the
iteration limit and the test file overwrite each other's results. -/
theorem C97_overwritten : ∃ argv argv' s s', settings argv = .ok s ∧ settings argv' = .ok s' ∧ s.trainFile ≠ s'.trainFile ∧
    s.testFile ≠ s'.testFile ∧ s.timeLimit ≠ s'.timeLimit ∧ s.maxIterations ≠ s'.maxIterations ∧ resultsFile s = resultsFile s' :=
  ⟨["-T", "a/train.csv", "-t", "a/test.csv"].map String.toList, ["-T", "b/train.csv", "-t", "b/test.csv", "-s", "60", "-i", "5"].map String.toList,
    ⟨"a/train.csv".toList, "a/test.csv".toList, 2, -1, 600, 200, [','], some 0, "results/".toList⟩,
    ⟨"b/train.csv".toList, "b/test.csv".toList, 2, 5, 60, 20, [','], some 0, "results/".toList⟩, by decide +kernel⟩

/-- Two depths give two files. -/
example {s s' : Settings} (h : settings ["-d".toList, "3".toList] = .ok s) (h' : settings ["-d4".toList] = .ok s') : resultsFile s ≠ resultsFile s' := by
  intro he
  have hd := ((C97_result_file h h').1 he).2.2
  have e : settings ["-d".toList, "3".toList] = .ok ⟨[], [], 3, -1, 600, 200, [','], some 0, "results/".toList⟩ := by decide +kernel
  have e' : settings ["-d4".toList] = .ok ⟨[], [], 4, -1, 600, 200, [','], some 0, "results/".toList⟩ := by decide +kernel
  rw [e] at h; rw [e'] at h'
  obtain rfl := Except.ok.inj h
  obtain rfl := Except.ok.inj h'
  exact absurd hd (by decide)

end Verif.Exp.Cmd.Demo
