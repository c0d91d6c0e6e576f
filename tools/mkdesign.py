#!/usr/bin/env python3
"""Write DESIGN.md: fixed text, and one table row per property (status and theorems taken from MANIFEST.json)."""
import json, os
root = os.path.join(os.path.dirname(__file__), "..")
props = [json.loads(l) for l in open(os.path.join(root, "properties.jsonl"))]
claims = {c["property"]: c for c in json.load(open(os.path.join(root, "MANIFEST.json")))["claims"]}

HEAD = """# Formal model of PandaResampler in Lean 4

Written before the proofs and kept up to date. The property table at the end is generated by `tools/mkdesign.py`.

## Trusted base

* Lean's kernel (4.33.0). The theorems depend on the axioms `propext`, `Classical.choice` and `Quot.sound` and on no others. There is no
  `sorry`, no `native_decide`, no `bv_decide` and no axiom of our own. Finite tables (coefficients) are evaluated by the kernel
  (`decide +kernel`), also inside of interval and polynomial certificates; the soundness of these certificates is proved.
* Mathlib, as far as its definitions occur in statements (real numbers, `sin`, `cos`, `log`, `HasDerivAt`, sums).
* The reading of the source. The model was written by hand from the text; the code was neither compiled nor run. Every definition of
  `Verif/Model` cites the file and the lines it models.
* The specifications in `Verif/Spec` and in the statements in `Verif/Props`, which are meant to be read.

## Layout

* `Verif/Model`: the code. `Verif/Spec`: specifications that do not mention the code's helpers. `Verif/Proofs`: lemmas.
  `Verif/Props`: the property theorems, each with a concrete case that meets its hypotheses.
* `seeded/LOG.jsonl`: wrong programs the theorems were tested against (one edit of the model each) and which theorems failed.
* `properties.jsonl`, `MANIFEST.json`: the properties and the theorems that settle them.

## Model

* `Res a = Except UB a`. Undefined behaviour is an outcome of its own: out-of-bounds read or write, misaligned vector access, null
  dereference, failed `assert` (unless `NDEBUG`), bad `free`, non-termination, float to int conversion out of range, and (designer)
  integer overflow and evaluation of a function outside of its domain.
* A buffer has an address, a length and contents. Every access is checked, vector accesses also for their alignment.
* Samples: the code is modelled over a type with uninterpreted `+ - * 0 1` and conversion of the constants. A theorem without laws of
  arithmetic holds bit for bit for IEEE floats with one rounding per operation of the source (no FMA contraction, no `-ffast-math`).
  "Exact arithmetic" means any commutative ring, or the reals. "binary32" means round to nearest even on rationals (C118); overflow is an
  explicit question (C22), infinities and NaN occur only in the witnesses that say so.
* `uint` arithmetic that can wrap is written modulo 2^32. Loops are structural, or fuelled with `UB.nonterm` when the fuel runs out;
  loops of the designer have no bound and yield `UB.nonterm` exactly if they do not terminate.
* Builds (`Build`): SSE, NEON or neither, with or without `NDEBUG`. Local arrays start with arbitrary contents.

### What is modelled

| source | model |
|--------|-------|
| pandaresampler.hh: `AlignedArray` | Model/AlignedArray (abstract heap) |
| pandaresampler.hh: `Resampler2`, its queries, `process_block`, `reset` | Model/Resampler, Model/Session |
| pandaresampler.cc: FIR kernels (scalar and SSE), `Upsampler2`, `Downsampler2`, factory, all FIR and IIR tables, `IIRUpsampler2`, `IIRDownsampler2` | Model/Fir, Model/Resampler, Model/Tables |
| pandaresampler.cc: `fir_test_filter_sse`, `test_filter_impl` | Model/SelfTest |
| hiir: stages, up- and downsamplers (FPU and SSE), `process_block_split` | Model/Iir, Model/InPlace |
| `process_block` with `output == input` (all ratios and filters) | Model/InPlaceApi |
| `process_block` with two pointers into one array (all ratios and filters) | Model/Shared |
| allocation, release, stack unwinding in constructors, move operations and destructors of `Resampler2` and of what it owns | Model/Lifetime |
| hiir `PolyphaseIir2Designer`, `ipowp`, `ceil_int` | Model/Designer |
| hiir `round_int` (`double`) | Model/Fnc |
| filter-design/mkiir.cc: `mk_group_delay`, body of `main` | Model/Designer |
| filter-design/us_sinc.m line 2, filter-design/mkfir.sh: all calls, selection of the coefficients | Model/FirDesign |
| contraction of multiplications and additions by the compiler | Model/Contract (samples are expressions, evaluated for a choice of contractions) |
| tests/testresampler.cc: `check_arg`, `Options::parse`, choice of the command in `main` | Model/TestArgs |
| tests/testresampler.cc: `perform_test` (performance, accuracy, impulse): resamplers, arrays, calls, samples compared, maximum error | Model/TestHarness |
| tests/testresampler.cc: `run_accuracy`, `check_accuracy_full`, test signals, phases and thresholds of `perform_test` | Model/TestCheck |
| tests/testaddr.cc, testsimple.cc, testmultiperf.cc, testmultidelay.cc, testdownmulti.cc, testdistort.cc, testsawquality.cc: resamplers, arrays and calls | Model/TestPrograms |
| tests/testmultidelay.cc: test signal, `new_rate`, expected values, error, list of tests | Model/TestDelay |
| tests/testresampler.cc, testsawquality.cc, testdownmulti.cc: window, normalization and amplitudes of the spectra | Model/TestSpectrum |
| tests/testsawquality.cc: test signal | Model/TestSaw |
| tests/testdownmulti.cc: list of frequencies | Model/TestFreqs |
| conversions from `double` to `float` of the table constants, `delay()` in `double` | Model/Double |

### Simplifications

* The designer computes with real numbers instead of `double`, and with exact library functions; `int` overflow is
  checked in `ceil_int` and in the products of the functions that compute coefficients and attenuations. `PI` is the literal of the source, which is smaller than pi.
* The FIR design scripts compute with real numbers. `ultrwin` is part of an Octave package and not of the repository: it is specified by
  what the window is (Spec/Ultraspherical), not modelled. The meaning of its option `"latt"` (the side lobe next to half of the sampling
  frequency) is our reading; C72 shows that all tables agree with it to 16 digits.
* Table constants are exact decimals rounded once to the sample type, and `delay()` is an exact rational number; the detour through
  `double` is modelled separately and shown not to matter (C73) or to matter by at most 1e-14 (C74).
* Caller buffers do not overlap, except where overlap is the subject (C43: hiir; C82: `output == input`; C86: disjoint parts of one array).
* hiir code is modelled for the number of coefficients given by the tables, unrolled templates as loops.
* NEON intrinsics are taken to do what the SSE ones do, as the wrapper in the source intends.

* The test signals and phases of testresampler.cc and testmultidelay.cc are real numbers instead of `double`, `sin` and `log` are exact (C96, C99).

### Not modelled

The compiler; FMA contraction except in C79, C80 and C81; flushing of subnormal numbers except in C77, C87, C118 and C119; threads; exceptions other than `std::bad_alloc` in constructors (C89); virtual dispatch; printing
(`printf`); tests and tools (`/repo/tests` except as above and the accuracy thresholds, Spec/Threshold; not modelled of testresampler.cc: rounding of sinusoids and phases, text output, time measurement; of the smaller test programs: text output, time measurement, the code of the Fourier transforms (FFTW), parsing of the arguments, the comparison with zita-resampler; plotting); hiir classes the library does not use (other vector widths, `double`).

## Certificates

* Frequency responses of FIR tables: Chebyshev to Bernstein form, integer arithmetic in the kernel (Proofs/Cheb, Bernstein).
* Stop bands of IIR tables: polynomial inequality for the difference of the all-pass branches, exact and rounded coefficients.
* Group delays and the designer's output: fixed point interval arithmetic with unit 10^-40 (Proofs/Interval), enclosing `cos`, `sin`,
  square roots and the truncated theta series with an explicit tail.
* Range of designed coefficients: theta function identities as bilateral series (Proofs/Theta), numeric bounds (Proofs/ThetaBounds).
* FIR tables against their design: Gegenbauer polynomials with integer coefficients, brackets of width 10^-110 for the parameter of the
  window, Lipschitz bounds for what lies between (Proofs/UltraPoly, UltraTables).

## Properties

Status `partial` mostly means that the property is false of the code as it stands: the negation is proved with a concrete witness (names
containing `_false`), together with the part that does hold.

| id | property | status | theorems | remarks |
|----|----------|--------|----------|---------|
"""
rows = []
for p in props:
    c = claims.get(p["id"])
    esc = lambda s: s.replace("|", "\\|")
    if c is None:
        rows.append("| %s | %s | open | | not proved yet |" % (p["id"], esc(p["title"])))
    else:
        names = ", ".join("`%s`" % t.replace("Panda.", "", 1) for t in c["theorems"])
        rows.append("| %s | %s | %s | %s | %s |" % (p["id"], esc(p["title"]), c["status"].replace("_", " "), names, esc(c["note"])))
with open(os.path.join(root, "DESIGN.md"), "w") as f:
    f.write(HEAD + "\n".join(rows) + "\n")
