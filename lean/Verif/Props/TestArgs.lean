import Verif.Proofs.TestArgs

/-!
# C91: the command line of the test program
-/

set_option linter.unusedSectionVars false

namespace Panda.Tool

variable {D : Type} [Zero D] [One D] [Neg D] [LT D] [DecidableLT D]

/-- Default values (testresampler.cc:104, 107-121), with integers for `double`. -/
def defaults : Opts Int :=
  { blockSize := 128, frequency := 440, freqMin := -1, freqMax := -1, freqInc := 0, freqScanVerbose := false, maxThresholdDb := 0,
    precision := 16, filterImplVerbose := false, verbose := false, useSse := true, resampleType := .up }

/-- Some arguments: every form of option, and an argument left over in between. -/
def someArgs : List Str :=
  ["--block-size=7", "accuracy", "--precision", "20", "--freq-scan=50,,18000,50", "--down", "--max-threshold", "96"].map (·.toList)

/-- What they mean. -/
def someOpts : Opts Int :=
  { defaults with blockSize := 8, precision := 20, freqMin := 50, freqMax := 18000, freqInc := 50, resampleType := .down,
                  maxThresholdDb := -96 }

theorem someParse : Parses intValue someArgs defaults ["accuracy".toList] someOpts := by
  refine .valueEq (n := "--block-size") (s := ['7']) (.blockSizeOdd _ 7 _ 8 (by decide) (by decide) (by decide) (by decide) (by decide)) ?_
  refine .other ?_ (by decide) (by decide) ?_
  · rintro ⟨n, hn, h | ⟨s, h⟩⟩
    · revert n; decide
    · have : '=' ∈ "accuracy".toList := by
        change "accuracy".toList = _ at h
        rw [h]; simp
      exact absurd this (by decide)
  refine .valueNext (n := "--precision") (s := "20".toList) (.precision _ 20 _ (by decide) (by decide)) ?_
  refine .valueEq (n := "--freq-scan") (s := "50,,18000,50".toList)
    (.freqScan _ "50".toList "18000".toList "50".toList _ (by rw [tokens_part]; decide) (by rw [tokens_part]; decide)
      (by rw [tokens_part]; decide) (by decide)) ?_
  refine .flag .down ?_
  exact .valueNext (n := "--max-threshold") (s := "96".toList) (.thresholdNeg _ _ (by decide)) (.nil _)

/-- **C91** (meaning of the command line) `Options::parse` succeeds exactly for the command lines of the grammar, sets the options
accordingly, moves the remaining arguments to the front in their order, fills up with null pointers, and reports their number. -/
theorem C91_parse (atof : Str → D) (p : Str) (args : List Str) (o o' : Opts D) (v : Argv) (c : Nat) :
    parse atof (some p :: args.map some) o = .ok (v, c, o') ↔
      ∃ rest, Parses atof args o rest o' ∧ c = rest.length + 1 ∧ rest.length ≤ args.length ∧
        v = some p :: rest.map some ++ List.replicate (args.length - rest.length) none := by
  rw [parse_eq]
  constructor
  · intro h
    cases hs : specF (optTable atof) args o with
    | error e => rw [hs] at h; cases h
    | ok q =>
      obtain ⟨m, o1⟩ := q
      rw [hs] at h
      cases h
      refine ⟨_, specF_parses atof hs, rfl, ?_, rfl⟩
      rw [← specF_length hs]
      exact List.length_filterMap_le _ _
  · rintro ⟨rest, h, rfl, -, rfl⟩
    obtain ⟨m, hm, rfl⟩ := parses_specF atof h
    rw [hm]
    rfl

example : parse intValue (some "testresampler".toList :: someArgs.map some) defaults =
    .ok (some "testresampler".toList :: some "accuracy".toList :: List.replicate 7 none, 2, someOpts) :=
  (C91_parse intValue _ someArgs defaults someOpts _ 2).2 ⟨_, someParse, rfl, by decide, by decide⟩

/-- **C91** (no ambiguity) A command line has at most one meaning. -/
theorem C91_unambiguous (atof : Str → D) (args r1 r2 : List Str) (o o1 o2 : Opts D) (h1 : Parses atof args o r1 o1)
    (h2 : Parses atof args o r2 o2) : r1 = r2 ∧ o1 = o2 := by
  obtain ⟨m1, e1, rfl⟩ := parses_specF atof h1
  obtain ⟨m2, e2, rfl⟩ := parses_specF atof h2
  rw [e1] at e2
  cases e2
  exact ⟨rfl, rfl⟩

/-- **C91** (help) The program ends with status 0 exactly if `--help` or `-h` follows a sequence of complete, valid options and other
arguments. -/
theorem C91_help (atof : Str → D) (p : Str) (args : List Str) (o : Opts D) :
    parse atof (some p :: args.map some) o = .error (.exit 0) ↔
      ∃ pre rest left o1, Parses atof pre o left o1 ∧
        (args = pre ++ "--help".toList :: rest ∨ args = pre ++ "-h".toList :: rest) := by
  rw [parse_error]
  constructor
  · intro h
    obtain ⟨pre, a, rest, left, o1, ha, hp, ⟨-, hh⟩ | ⟨-, hs⟩⟩ := specF_stop atof h
    · refine ⟨pre, rest, left, o1, hp, ?_⟩
      rcases hh with rfl | rfl
      · exact Or.inl ha
      · exact Or.inr ha
    · rcases stepF_stop atof hs with h | ⟨h, -⟩ <;> cases h
  · rintro ⟨pre, rest, left, o1, hp, rfl | rfl⟩ <;> refine specF_append_error atof hp ?_ <;> rw [specF]
    · rw [if_pos (Or.inl rfl)]
    · rw [if_pos (Or.inr rfl)]

/-- `--help` behind other options; and as the argument of an option, where it is not a request for help. -/
example : parse intValue (some [] :: (someArgs ++ ["--help".toList, "--precision=7".toList]).map some) defaults = .error (.exit 0) ∧
    parse intValue (some [] :: ["--block-size".toList, "--help".toList].map some) defaults =
      .ok (some [] :: [none, none], 1, { defaults with blockSize := 2 }) :=
  ⟨(C91_help intValue [] _ defaults).2 ⟨someArgs, _, _, _, someParse, Or.inl rfl⟩, by decide +kernel⟩

/-- **C91** (no undefined behaviour but one) Whatever the arguments: no null pointer is passed to `strcmp`, nothing is read or written
outside of `argv`, no `assert` fails, the loop ends. The only undefined behaviour is `atoi` for a block size or a precision that is
not a value of `int`. -/
theorem C91_safe (atof : Str → D) (p : Str) (args : List Str) (o : Opts D) (u : UB)
    (h : parse atof (some p :: args.map some) o = .error (.ub u)) :
    u = .overflow ∧ ∃ s a, a ∈ args ∧ (a = s ∨ a = "--block-size=".toList ++ s ∨ a = "--precision=".toList ++ s) ∧
      ¬ (-2 ^ 31 ≤ intValue s ∧ intValue s < 2 ^ 31) := by
  rw [parse_error] at h
  obtain ⟨pre, a, rest, left, o1, ha, hp, ⟨hh, -⟩ | ⟨-, hs⟩⟩ := specF_stop atof h
  · cases hh
  · rcases stepF_stop atof hs with h | ⟨h, s, hs, hat⟩
    · cases h
    · have hu : u = .overflow := by injection h
      have hr : ¬ (-2 ^ 31 ≤ intValue s ∧ intValue s < 2 ^ 31) := by
        intro hr
        unfold atoi at hat
        rw [if_pos hr] at hat
        cases hat
      refine ⟨hu, s, ?_⟩
      rcases hs with h | h | ⟨-, r, rfl⟩
      · exact ⟨a, by simp [ha], Or.inr (Or.inl (by rw [h]; simp)), hr⟩
      · exact ⟨a, by simp [ha], Or.inr (Or.inr (by rw [h]; simp)), hr⟩
      · exact ⟨s, by simp [ha], Or.inl rfl, hr⟩

/-- It does happen. -/
example : parse intValue [some [], some "--block-size=2147483648".toList] defaults = .error (.ub .overflow) := by decide +kernel

/-- **C91** (ranges) Starting from the default values, the block size is an even `uint` not less than 2, and the precision is one of
the enumerators. -/
theorem C91_ranges (atof : Str → D) (args rest : List Str) (o o' : Opts D) (h : Parses atof args o rest o')
    (hb : o.blockSize % 2 = 0 ∧ 2 ≤ o.blockSize ∧ o.blockSize < 2 ^ 32) (hp : o.precision ∈ [1, 8, 12, 16, 20, 24]) :
    (o'.blockSize % 2 = 0 ∧ 2 ≤ o'.blockSize ∧ o'.blockSize < 2 ^ 32) ∧ o'.precision ∈ [1, 8, 12, 16, 20, 24] := by
  have hval : ∀ {n : String} {s : Str} {o o1 : Opts D}, Value atof n s o o1 →
      (o.blockSize % 2 = 0 ∧ 2 ≤ o.blockSize ∧ o.blockSize < 2 ^ 32) → o.precision ∈ [1, 8, 12, 16, 20, 24] →
      (o1.blockSize % 2 = 0 ∧ 2 ≤ o1.blockSize ∧ o1.blockSize < 2 ^ 32) ∧ o1.precision ∈ [1, 8, 12, 16, 20, 24] := by
    intro n s o o1 hv hb hp
    cases hv with
    | blockSize => exact ⟨⟨by assumption, by assumption, by assumption⟩, hp⟩
    | blockSizeOdd => exact ⟨⟨by assumption, by assumption, by assumption⟩, hp⟩
    | blockSizeMin => exact ⟨⟨(by decide : 2 % 2 = 0), Nat.le_refl 2, (by decide : 2 < 2 ^ 32)⟩, hp⟩
    | precision => exact ⟨hb, List.mem_cons_of_mem _ (by assumption)⟩
    | _ => exact ⟨hb, hp⟩
  induction h with
  | nil o => exact ⟨hb, hp⟩
  | flag hf _ ih =>
    cases hf with
    | linear => exact ih hb (by simp)
    | _ => exact ih hb hp
  | valueNext hv _ ih => exact ih (hval hv hb hp).1 (hval hv hb hp).2
  | valueEq hv _ ih => exact ih (hval hv hb hp).1 (hval hv hb hp).2
  | other _ _ _ _ ih => exact ih hb hp

example : someOpts.blockSize % 2 = 0 ∧ 2 ≤ someOpts.blockSize ∧ someOpts.precision = 20 :=
  let h := C91_ranges intValue someArgs _ defaults someOpts someParse (by decide) (by decide)
  ⟨h.1.1, h.1.2.1, rfl⟩

/-- **C91** (commands) A test is started exactly if one argument is left over and is the name of a command; the usage message is
printed exactly if none is left over. In particular, `argv[1]` is never a null pointer. -/
theorem C91_command (atof : Str → D) (sse : Bool) (args : List Str) (o o' : Opts D) (c : Command) :
    standaloneArgs atof sse args o = .ok (c, o') ↔
      ∃ rest, Parses atof args { o with useSse := sse } rest o' ∧
        ((rest = [] ∧ c = .usage) ∨ ∃ a, rest = [a] ∧ Names a c) := by
  have hn : ∀ a : Str, (a, c) ∈ commands ↔ Names a c := by
    intro a
    constructor
    · intro h
      rcases List.mem_cons.1 h with h | h
      · cases h; exact .perf
      rcases List.mem_cons.1 h with h | h
      · cases h; exact .performance
      rcases List.mem_cons.1 h with h | h
      · cases h; exact .accuracy
      rcases List.mem_cons.1 h with h | h
      · cases h; exact .errorTable
      rcases List.mem_cons.1 h with h | h
      · cases h; exact .errorSpectrum
      rcases List.mem_cons.1 h with h | h
      · cases h; exact .dirac
      rcases List.mem_cons.1 h with h | h
      · cases h; exact .filterImpl
      · cases h
    · intro h
      unfold commands
      cases h
      · exact List.mem_cons_self
      · exact .tail _ List.mem_cons_self
      · exact .tail _ (.tail _ List.mem_cons_self)
      · exact .tail _ (.tail _ (.tail _ List.mem_cons_self))
      · exact .tail _ (.tail _ (.tail _ (.tail _ List.mem_cons_self)))
      · exact .tail _ (.tail _ (.tail _ (.tail _ (.tail _ List.mem_cons_self))))
      · exact .tail _ (.tail _ (.tail _ (.tail _ (.tail _ (.tail _ List.mem_cons_self)))))
  have hl : ∀ a : Str, commands.lookup a = some c ↔ Names a c := fun a => (lookup_mem (by decide) a c).trans (hn a)
  unfold standaloneArgs
  constructor
  · intro h
    cases hp : parse atof (some "testresampler".toList :: args.map some) { o with useSse := sse } with
    | error e => rw [hp] at h; cases h
    | ok q =>
      obtain ⟨v, k, o1⟩ := q
      obtain ⟨rest, h1, h2, h3, h4⟩ := (C91_parse atof _ args _ o1 v k).1 hp
      rw [hp] at h
      simp only [run_ok_bind] at h
      match rest, h2 with
      | [], h2 =>
        simp only [List.length_nil] at h2
        subst h2
        cases h
        exact ⟨[], h1, Or.inl ⟨rfl, rfl⟩⟩
      | [a], h2 =>
        simp only [List.length_cons, List.length_nil] at h2
        subst h2
        have hr : Argv.rd v 1 = .ok (some a) := by rw [h4]; rfl
        rw [if_pos rfl, hr] at h
        simp only [run_ok_bind] at h
        cases hc : commands.lookup a with
        | none => rw [hc] at h; cases h
        | some c' =>
          rw [hc] at h
          cases h
          exact ⟨[a], h1, Or.inr ⟨a, rfl, (hl a).1 hc⟩⟩
      | _ :: _ :: r, h2 =>
        simp only [List.length_cons] at h2
        rw [if_neg (by omega), if_neg (by omega)] at h
        cases h
  · rintro ⟨rest, h, ⟨rfl, rfl⟩ | ⟨a, rfl, ha⟩⟩
    · rw [(C91_parse atof "testresampler".toList args _ o' _ 1).2 ⟨_, h, rfl, by simp, rfl⟩]
      rfl
    · have hle : [a].length ≤ args.length := by
        obtain ⟨m, hm, e⟩ := parses_specF atof h
        rw [← e, ← specF_length hm]
        exact List.length_filterMap_le _ _
      rw [(C91_parse atof "testresampler".toList args _ o' _ 2).2 ⟨_, h, rfl, hle, rfl⟩]
      simp only [run_ok_bind]
      have hr : Argv.rd (some "testresampler".toList :: [a].map some ++ List.replicate (args.length - [a].length) none) 1 =
          .ok (some a) := rfl
      rw [if_pos trivial, hr]
      simp only [run_ok_bind]
      rw [(hl a).2 ha]
      rfl

example : standaloneArgs intValue true someArgs defaults = .ok (.accuracy, someOpts) :=
  (C91_command intValue true someArgs defaults someOpts .accuracy).2 ⟨_, someParse, Or.inr ⟨_, rfl, .accuracy⟩⟩

end Panda.Tool
