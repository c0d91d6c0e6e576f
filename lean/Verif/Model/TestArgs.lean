import Verif.Model.Basic

/-!
# The command line of the test program (tests/testresampler.cc:107-127, 186-352, 733-770)

A C string is modelled by the list of its characters (without the terminator). `argv` is the vector that `main` builds
(testresampler.cc:904-908): it has `argc` elements and no terminating null pointer behind them. A null pointer in it is `none`.
Messages (`printf`, `fprintf`) are not modelled.
-/

namespace Panda.Tool

/-- A C string. (testresampler.cc:188) -/
abbrev Str := List Char

/-- The program ends early: undefined behaviour, or `exit (code)`. (testresampler.cc:231, 256) -/
inductive Stop where
  | ub (u : UB)
  | exit (code : Nat)
  deriving DecidableEq, Repr

/-- Result of running a piece of the test program. (testresampler.cc:187-350) -/
abbrev Run (α : Type) := Except Stop α

/-- The vector of arguments. (testresampler.cc:188) -/
abbrev Argv := List (Option Str)

/-- `argv[i]` as an rvalue. (testresampler.cc:196, 206) -/
def Argv.rd (v : Argv) (i : Nat) : Run (Option Str) :=
  match v[i]? with
  | some a => .ok a
  | none => .error (.ub .oobRead)

/-- `argv[i] = a` (testresampler.cc:205, 207, 346-348) -/
def Argv.wr (v : Argv) (i : Nat) (a : Option Str) : Run Argv :=
  if i < v.length then .ok (v.set i a) else .error (.ub .oobWrite)

/-- testresampler.cc:94-100 -/
inductive ResampleType where
  | down
  | up
  | sub
  | over
  deriving DecidableEq, Repr

/-- testresampler.cc:107-121 `Options`, and the global `resample_type` (104). `precision` is the numeric value of the enumerator.
`D` stands for `double`. -/
structure Opts (D : Type) where
  blockSize : Nat
  frequency : D
  freqMin : D
  freqMax : D
  freqInc : D
  freqScanVerbose : Bool
  maxThresholdDb : D
  precision : Nat
  filterImplVerbose : Bool
  verbose : Bool
  useSse : Bool
  resampleType : ResampleType
  deriving DecidableEq

/-- testresampler.cc:187-232 `check_arg`; `wants` tells whether `opt_arg` is a non-null pointer. Returns `none` for `false`, and for
`true` the new contents of `argv`, of `*nth`, and the argument of the option (empty if there is none). -/
def checkArg (argc : Nat) (argv : Argv) (nth : Nat) (opt : Str) (wants : Bool) : Run (Option (Argv × Nat × Str)) := do
  if ¬ nth < argc then .error (.ub .assertFail)
  else
    match ← argv.rd nth with
    | none => pure none
    | some arg =>
      if arg = opt then
        if wants = true ∧ nth + 1 < argc then do
          let argv ← argv.wr nth none
          match ← argv.rd (nth + 1) with
          | none => .error (.ub .nullDeref)
          | some optArg => do
            let argv ← argv.wr (nth + 1) none
            pure (some (argv, nth + 1, optArg))
        else if wants = false then do
          let argv ← argv.wr nth none
          pure (some (argv, nth, []))
        else .error (.exit 1)
      else if opt.isPrefixOf arg = true ∧ arg[opt.length]? = some '=' then
        if wants = true then do
          let argv ← argv.wr nth none
          pure (some (argv, nth, arg.drop (opt.length + 1)))
        else .error (.exit 1)
      else pure none

/-- `isspace` in the C locale (`atoi`). (testresampler.cc:260, 275) -/
def isSpace (c : Char) : Bool := c ∈ [' ', '\t', '\n', '\x0b', '\x0c', '\r']

/-- The number the leading digits of a string stand for (`atoi`). (testresampler.cc:260, 275) -/
def digits : Nat → Str → Nat
  | n, [] => n
  | n, c :: s => if c.isDigit then digits (10 * n + (c.toNat - '0'.toNat)) s else n

/-- The number a string stands for (`atoi`). (testresampler.cc:260, 275) -/
def intValue (s : Str) : Int :=
  match s.dropWhile isSpace with
  | '-' :: t => -(digits 0 t : Int)
  | '+' :: t => digits 0 t
  | t => digits 0 t

/-- `atoi (s)` of the C library: undefined if the number is not a value of `int`. (testresampler.cc:260, 275) -/
def atoi (s : Str) : Run Int :=
  if -2 ^ 31 ≤ intValue s ∧ intValue s < 2 ^ 31 then pure (intValue s) else .error (.ub .overflow)

/-- testresampler.cc:258-272 `--block-size` (`block_size` is a `uint`) -/
def setBlockSize {D : Type} (s : Str) (o : Opts D) : Run (Opts D) := do
  let b := ((← atoi s) % 2 ^ 32).toNat
  let b := if b % 2 = 1 then u32 (b + 1) else b
  let b := if b < 2 then 2 else b
  pure { o with blockSize := b }

/-- testresampler.cc:273-287 `--precision` -/
def setPrecision {D : Type} (s : Str) (o : Opts D) : Run (Opts D) := do
  let p ← atoi s
  if p ∈ [(8 : Int), 12, 16, 20, 24] then pure { o with precision := p.toNat } else .error (.exit 1)

/-- What repeated calls `strtok (.., ",")` return (testresampler.cc:299-301): the parts between commas, without the empty ones.
`cur` is the part read so far, reversed. -/
def tokens : Str → Str → List Str
  | cur, [] => if cur = [] then [] else [cur.reverse]
  | cur, ',' :: s => if cur = [] then tokens [] s else cur.reverse :: tokens [] s
  | cur, c :: s => tokens (c :: cur) s

section
variable {D : Type} [Zero D] [One D] [Neg D] [LT D] [DecidableLT D]

/-- testresampler.cc:298-308: the three numbers of `--freq-scan`; `atof` is the function of the C library. -/
def scanOpts (atof : Str → D) (s : Str) (o : Opts D) : Opts D :=
  match tokens [] s with
  | fmin :: fmax :: finc :: _ => { o with freqMin := atof fmin, freqMax := atof fmax, freqInc := atof finc }
  | _ => o

/-- testresampler.cc:296-315 `--freq-scan` -/
def setFreqScan (atof : Str → D) (s : Str) (o : Opts D) : Run (Opts D) :=
  if (scanOpts atof s o).freqInc < 1 then .error (.exit 1) else pure (scanOpts atof s o)

/-- testresampler.cc:320-326 `--max-threshold` -/
def setMaxThreshold (atof : Str → D) (s : Str) (o : Opts D) : Run (Opts D) :=
  pure { o with maxThresholdDb := if 0 < atof s then -atof s else atof s }

/-- What an option does: without or with an argument. (testresampler.cc:258-338) -/
inductive Action (D : Type) where
  | flag (f : Opts D → Opts D)
  | value (f : Str → Opts D → Run (Opts D))

/-- testresampler.cc:258-338: the options in the order in which `parse` tries them. -/
def optTable (atof : Str → D) : List (Str × Action D) :=
  [("--block-size".toList, .value setBlockSize),
   ("--precision".toList, .value setPrecision),
   ("--precision-linear".toList, .flag fun o => { o with precision := 1 }),
   ("--fpu".toList, .flag fun o => { o with useSse := false }),
   ("--freq-scan".toList, .value (setFreqScan atof)),
   ("--freq-scan-verbose".toList, .flag fun o => { o with freqScanVerbose := true }),
   ("--frequency".toList, .value fun s o => pure { o with frequency := atof s }),
   ("--max-threshold".toList, .value (setMaxThreshold atof)),
   ("--filter-impl-verbose".toList, .flag fun o => { o with filterImplVerbose := true }),
   ("--verbose".toList, .flag fun o => { o with verbose := true }),
   ("--up".toList, .flag fun o => { o with resampleType := .up }),
   ("--down".toList, .flag fun o => { o with resampleType := .down }),
   ("--subsample".toList, .flag fun o => { o with resampleType := .sub }),
   ("--oversample".toList, .flag fun o => { o with resampleType := .over })]

/-- testresampler.cc:258-338: the chain of `else if (check_arg (..))`. State: `argv`, `i`, the options. -/
def tryOpts (argc : Nat) (argv : Argv) (i : Nat) (o : Opts D) : List (Str × Action D) → Run (Argv × Nat × Opts D)
  | [] => pure (argv, i, o)
  | (name, .flag f) :: l => do
    match ← checkArg argc argv i name false with
    | some (argv, i, _) => pure (argv, i, f o)
    | none => tryOpts argc argv i o l
  | (name, .value f) :: l => do
    match ← checkArg argc argv i name true with
    | some (argv, i, s) => do pure (argv, i, ← f s o)
    | none => tryOpts argc argv i o l

/-- testresampler.cc:251-338: body of the loop over the arguments. -/
def parseArg (atof : Str → D) (argc : Nat) (argv : Argv) (i : Nat) (o : Opts D) : Run (Argv × Nat × Opts D) := do
  match ← argv.rd i with
  | none => .error (.ub .nullDeref)
  | some a =>
    if a = "--help".toList ∨ a = "-h".toList then .error (.exit 0)
    else tryOpts argc argv i o (optTable atof)

/-- testresampler.cc:249-339: the loop over the arguments; `fuel` bounds the number of iterations. -/
def parseLoop (atof : Str → D) (argc : Nat) : Nat → Argv → Nat → Opts D → Run (Argv × Opts D)
  | 0, argv, i, o => if i < argc then .error (.ub .nonterm) else pure (argv, o)
  | fuel + 1, argv, i, o =>
    if i < argc then do
      let (argv, i, o) ← parseArg atof argc argv i o
      parseLoop atof argc fuel argv (i + 1) o
    else pure (argv, o)

end

/-- testresampler.cc:343-349: body of the loop that moves the remaining arguments to the front. State: `argv`, `e`. -/
def resortStep (i : Nat) (s : Argv × Nat) : Run (Argv × Nat) := do
  match ← s.1.rd i with
  | none => pure s
  | some a => do
    let argv ← s.1.wr s.2 (some a)
    if i ≥ s.2 + 1 then do pure (← argv.wr i none, s.2 + 1) else pure (argv, s.2 + 1)

/-- testresampler.cc:341-349: `for (i = start; i < start + n; i++)` -/
def resort : Nat → Nat → Argv × Nat → Run (Argv × Nat)
  | 0, _, s => pure s
  | n + 1, i, s => do resort n (i + 1) (← resortStep i s)

/-- testresampler.cc:234-351 `Options::parse`; returns the new `argv`, `argc` and options. -/
def parse {D : Type} [Zero D] [One D] [Neg D] [LT D] [DecidableLT D] (atof : Str → D) (argv : Argv) (o : Opts D) :
    Run (Argv × Nat × Opts D) := do
  let argc := argv.length
  let (argv, o) ← parseLoop atof argc argc argv 1 o
  let (argv, e) ← resort (argc - 1) 1 (argv, 1)
  pure (argv, e, o)

/-- testresampler.cc:83-92, 733-770: what the program is asked to do. -/
inductive Command where
  | perf
  | accuracy
  | errorTable
  | errorSpectrum
  | impulse
  | filterImpl
  /-- no command: `usage`, return 0 -/
  | usage
  deriving DecidableEq, Repr

/-- testresampler.cc:740-755: the names of the commands. -/
def commands : List (Str × Command) :=
  [("perf".toList, .perf), ("performance".toList, .perf), ("accuracy".toList, .accuracy), ("error-table".toList, .errorTable),
   ("error-spectrum".toList, .errorSpectrum), ("dirac".toList, .impulse), ("filter-impl".toList, .filterImpl)]

/-- testresampler.cc:733-770 `standalone`, up to the call of `perform_test`, called by `main` (900-910) for the arguments `args`.
`sse` is the result of `sse_available()`. -/
def standaloneArgs {D : Type} [Zero D] [One D] [Neg D] [LT D] [DecidableLT D] (atof : Str → D) (sse : Bool) (args : List Str)
    (o : Opts D) : Run (Command × Opts D) := do
  let (argv, argc, o) ← parse atof (some "testresampler".toList :: args.map some) { o with useSse := sse }
  if argc = 2 then
    match ← argv.rd 1 with
    | none => .error (.ub .nullDeref)
    | some command =>
      match commands.lookup command with
      | some c => pure (c, o)
      | none => .error (.exit 1)
  else if argc = 1 then pure (.usage, o)
  else .error (.exit 1)

end Panda.Tool
