import Verif.Model.TestArgs

/-!
# What the command line of the test program means

A grammar: `Parses args o rest o'` says that the arguments `args` turn the options `o` into `o'`, and that `rest` are the arguments
that are neither options nor arguments of options.
-/

namespace Panda.Tool

variable {D : Type} [Zero D] [One D] [Neg D] [LT D]

/-- The options without an argument. -/
inductive Flag : String → (Opts D → Opts D) → Prop where
  | linear : Flag "--precision-linear" fun o => { o with precision := 1 }
  | fpu : Flag "--fpu" fun o => { o with useSse := false }
  | scanVerbose : Flag "--freq-scan-verbose" fun o => { o with freqScanVerbose := true }
  | filterImplVerbose : Flag "--filter-impl-verbose" fun o => { o with filterImplVerbose := true }
  | verbose : Flag "--verbose" fun o => { o with verbose := true }
  | up : Flag "--up" fun o => { o with resampleType := .up }
  | down : Flag "--down" fun o => { o with resampleType := .down }
  | sub : Flag "--subsample" fun o => { o with resampleType := .sub }
  | over : Flag "--oversample" fun o => { o with resampleType := .over }

/-- `s` is the `n`-th non-empty part of `t` between commas. -/
def Part (t : Str) (n : Nat) (s : Str) : Prop := ((t.splitOn ',').filter (· ≠ []))[n]? = some s

/-- The options with an argument: name, argument, options before, options after. `atof` converts a string to `double`. -/
inductive Value (atof : Str → D) : String → Str → Opts D → Opts D → Prop where
  /-- an even number that is not zero is taken as it is (as `uint`) -/
  | blockSize (s : Str) (n : Int) (o : Opts D) (b : Nat) : atoi s = .ok n → b < 2 ^ 32 → n % 2 ^ 32 = b → b % 2 = 0 → 2 ≤ b →
      Value atof "--block-size" s o { o with blockSize := b }
  /-- an odd number is increased -/
  | blockSizeOdd (s : Str) (n : Int) (o : Opts D) (b : Nat) : atoi s = .ok n → b < 2 ^ 32 → (n + 1) % 2 ^ 32 = b → b % 2 = 0 →
      2 ≤ b → Value atof "--block-size" s o { o with blockSize := b }
  /-- `0` and `-1` -/
  | blockSizeMin (s : Str) (n : Int) (o : Opts D) : atoi s = .ok n → n = 0 ∨ n = -1 →
      Value atof "--block-size" s o { o with blockSize := 2 }
  | precision (s : Str) (p : Nat) (o : Opts D) : atoi s = .ok (p : Int) → p ∈ [8, 12, 16, 20, 24] →
      Value atof "--precision" s o { o with precision := p }
  | freqScan (t a b c : Str) (o : Opts D) : Part t 0 a → Part t 1 b → Part t 2 c → ¬ atof c < 1 →
      Value atof "--freq-scan" t o { o with freqMin := atof a, freqMax := atof b, freqInc := atof c }
  /-- an incomplete specification has no effect if there has been another before -/
  | freqScanAgain (t : Str) (o : Opts D) : (∀ c, ¬ Part t 2 c) → ¬ o.freqInc < 1 → Value atof "--freq-scan" t o o
  | frequency (s : Str) (o : Opts D) : Value atof "--frequency" s o { o with frequency := atof s }
  | threshold (s : Str) (o : Opts D) : ¬ 0 < atof s → Value atof "--max-threshold" s o { o with maxThresholdDb := atof s }
  | thresholdNeg (s : Str) (o : Opts D) : 0 < atof s → Value atof "--max-threshold" s o { o with maxThresholdDb := -atof s }

/-- The names of all options. -/
def optionNames : List String :=
  ["--block-size", "--precision", "--precision-linear", "--fpu", "--freq-scan", "--freq-scan-verbose", "--frequency",
   "--max-threshold", "--filter-impl-verbose", "--verbose", "--up", "--down", "--subsample", "--oversample"]

/-- Is `a` an option, `--name` or `--name=...`? -/
def IsOption (a : Str) : Prop := ∃ n ∈ optionNames, a = n.toList ∨ ∃ s, a = n.toList ++ '=' :: s

/-- See above. -/
inductive Parses (atof : Str → D) : List Str → Opts D → List Str → Opts D → Prop where
  | nil (o : Opts D) : Parses atof [] o [] o
  | flag {n : String} {f : Opts D → Opts D} {args rest : List Str} {o o' : Opts D} : Flag n f → Parses atof args (f o) rest o' →
      Parses atof (n.toList :: args) o rest o'
  /-- `--name value` -/
  | valueNext {n : String} {s : Str} {args rest : List Str} {o o1 o' : Opts D} : Value atof n s o o1 → Parses atof args o1 rest o' →
      Parses atof (n.toList :: s :: args) o rest o'
  /-- `--name=value` -/
  | valueEq {n : String} {s : Str} {args rest : List Str} {o o1 o' : Opts D} : Value atof n s o o1 → Parses atof args o1 rest o' →
      Parses atof ((n.toList ++ '=' :: s) :: args) o rest o'
  | other {a : Str} {args rest : List Str} {o o' : Opts D} : ¬ IsOption a → a ≠ "--help".toList → a ≠ "-h".toList →
      Parses atof args o rest o' → Parses atof (a :: args) o (a :: rest) o'

/-- The names of the tests. -/
inductive Names : Str → Command → Prop
  | perf : Names "perf".toList .perf
  | performance : Names "performance".toList .perf
  | accuracy : Names "accuracy".toList .accuracy
  | errorTable : Names "error-table".toList .errorTable
  | errorSpectrum : Names "error-spectrum".toList .errorSpectrum
  | dirac : Names "dirac".toList .impulse
  | filterImpl : Names "filter-impl".toList .filterImpl

end Panda.Tool
