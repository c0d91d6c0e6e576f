# Formal model of PandaResampler in Lean 4

Written before the proofs and kept up to date. The property table at the end is generated by `tools/mkdesign.py`.

## Trusted base

* Lean's kernel (4.33.0). The theorems depend on the axioms `propext`, `Classical.choice` and `Quot.sound` and on no others. There is no
  `sorry`, no `native_decide`, no `bv_decide` and no axiom of our own. Finite tables (coefficients) are evaluated by the kernel
  (`decide +kernel`), also inside of interval and polynomial certificates; the soundness of these certificates is proved.
* Mathlib, as far as its definitions occur in statements (real numbers, `sin`, `cos`, `log`, `HasDerivAt`, sums).
* The reading of the source. The model was written by hand from the text; the code was neither compiled nor run. Every definition of
  `Verif/Model` cites the file and the lines it models.
* The specifications in `Verif/Spec` and in the statements in `Verif/Props`, which are meant to be read.

## Layout

* `Verif/Model`: the code. `Verif/Spec`: specifications that do not mention the code's helpers. `Verif/Proofs`: lemmas.
  `Verif/Props`: the property theorems, each with a concrete case that meets its hypotheses.
* `seeded/LOG.jsonl`: wrong programs the theorems were tested against (one edit of the model each) and which theorems failed.
* `properties.jsonl`, `MANIFEST.json`: the properties and the theorems that settle them.

## Model

* `Res a = Except UB a`. Undefined behaviour is an outcome of its own: out-of-bounds read or write, misaligned vector access, null
  dereference, failed `assert` (unless `NDEBUG`), bad `free`, non-termination, float to int conversion out of range, and (designer)
  integer overflow and evaluation of a function outside of its domain.
* A buffer has an address, a length and contents. Every access is checked, vector accesses also for their alignment.
* Samples: the code is modelled over a type with uninterpreted `+ - * 0 1` and conversion of the constants. A theorem without laws of
  arithmetic holds bit for bit for IEEE floats with one rounding per operation of the source (no FMA contraction, no `-ffast-math`).
  "Exact arithmetic" means any commutative ring, or the reals. "binary32" means round to nearest even on rationals (C118); overflow is an
  explicit question (C22), infinities and NaN occur only in the witnesses that say so.
* `uint` arithmetic that can wrap is written modulo 2^32. Loops are structural, or fuelled with `UB.nonterm` when the fuel runs out;
  loops of the designer have no bound and yield `UB.nonterm` exactly if they do not terminate.
* Builds (`Build`): SSE, NEON or neither, with or without `NDEBUG`. Local arrays start with arbitrary contents.

### What is modelled

| source | model |
|--------|-------|
| pandaresampler.hh: `AlignedArray` | Model/AlignedArray (abstract heap) |
| pandaresampler.hh: `Resampler2`, its queries, `process_block`, `reset` | Model/Resampler, Model/Session |
| pandaresampler.cc: FIR kernels (scalar and SSE), `Upsampler2`, `Downsampler2`, factory, all FIR and IIR tables, `IIRUpsampler2`, `IIRDownsampler2` | Model/Fir, Model/Resampler, Model/Tables |
| pandaresampler.cc: `fir_test_filter_sse`, `test_filter_impl` | Model/SelfTest |
| hiir: stages, up- and downsamplers (FPU and SSE), `process_block_split` | Model/Iir, Model/InPlace |
| `process_block` with `output == input` (all ratios and filters) | Model/InPlaceApi |
| `process_block` with two pointers into one array (all ratios and filters) | Model/Shared |
| allocation, release, stack unwinding in constructors, move operations and destructors of `Resampler2` and of what it owns | Model/Lifetime |
| hiir `PolyphaseIir2Designer`, `ipowp`, `ceil_int` | Model/Designer |
| hiir `round_int` (`double`) | Model/Fnc |
| filter-design/mkiir.cc: `mk_group_delay`, body of `main` | Model/Designer |
| filter-design/us_sinc.m line 2, filter-design/mkfir.sh: all calls, selection of the coefficients | Model/FirDesign |
| contraction of multiplications and additions by the compiler | Model/Contract (samples are expressions, evaluated for a choice of contractions) |
| tests/testresampler.cc: `check_arg`, `Options::parse`, choice of the command in `main` | Model/TestArgs |
| tests/testresampler.cc: `perform_test` (performance, accuracy, impulse): resamplers, arrays, calls, samples compared, maximum error | Model/TestHarness |
| tests/testresampler.cc: `run_accuracy`, `check_accuracy_full`, test signals, phases and thresholds of `perform_test` | Model/TestCheck |
| tests/testaddr.cc, testsimple.cc, testmultiperf.cc, testmultidelay.cc, testdownmulti.cc, testdistort.cc, testsawquality.cc: resamplers, arrays and calls | Model/TestPrograms |
| tests/testmultidelay.cc: test signal, `new_rate`, expected values, error, list of tests | Model/TestDelay |
| tests/testresampler.cc, testsawquality.cc, testdownmulti.cc: window, normalization and amplitudes of the spectra | Model/TestSpectrum |
| tests/testsawquality.cc: test signal | Model/TestSaw |
| tests/testdownmulti.cc: list of frequencies | Model/TestFreqs |
| conversions from `double` to `float` of the table constants, `delay()` in `double` | Model/Double |

### Simplifications

* The designer computes with real numbers instead of `double`, and with exact library functions; `int` overflow is
  checked in `ceil_int` and in the products of the functions that compute coefficients and attenuations. `PI` is the literal of the source, which is smaller than pi.
* The FIR design scripts compute with real numbers. `ultrwin` is part of an Octave package and not of the repository: it is specified by
  what the window is (Spec/Ultraspherical), not modelled. The meaning of its option `"latt"` (the side lobe next to half of the sampling
  frequency) is our reading; C72 shows that all tables agree with it to 16 digits.
* Table constants are exact decimals rounded once to the sample type, and `delay()` is an exact rational number; the detour through
  `double` is modelled separately and shown not to matter (C73) or to matter by at most 1e-14 (C74).
* Caller buffers do not overlap, except where overlap is the subject (C43: hiir; C82: `output == input`; C86: disjoint parts of one array).
* hiir code is modelled for the number of coefficients given by the tables, unrolled templates as loops.
* NEON intrinsics are taken to do what the SSE ones do, as the wrapper in the source intends.

* The test signals and phases of testresampler.cc and testmultidelay.cc are real numbers instead of `double`, `sin` and `log` are exact (C96, C99).

### Not modelled

The compiler; FMA contraction except in C79, C80 and C81; flushing of subnormal numbers except in C77, C87, C118 and C119; threads; exceptions other than `std::bad_alloc` in constructors (C89); virtual dispatch; printing
(`printf`); tests and tools (`/repo/tests` except as above and the accuracy thresholds, Spec/Threshold; not modelled of testresampler.cc: rounding of sinusoids and phases, text output, time measurement; of the smaller test programs: text output, time measurement, the code of the Fourier transforms (FFTW), parsing of the arguments, the comparison with zita-resampler; plotting); hiir classes the library does not use (other vector widths, `double`).

## Certificates

* Frequency responses of FIR tables: Chebyshev to Bernstein form, integer arithmetic in the kernel (Proofs/Cheb, Bernstein).
* Stop bands of IIR tables: polynomial inequality for the difference of the all-pass branches, exact and rounded coefficients.
* Group delays and the designer's output: fixed point interval arithmetic with unit 10^-40 (Proofs/Interval), enclosing `cos`, `sin`,
  square roots and the truncated theta series with an explicit tail.
* Range of designed coefficients: theta function identities as bilateral series (Proofs/Theta), numeric bounds (Proofs/ThetaBounds).
* FIR tables against their design: Gegenbauer polynomials with integer coefficients, brackets of width 10^-110 for the parameter of the
  window, Lipschitz bounds for what lies between (Proofs/UltraPoly, UltraTables).

## Properties

Status `partial` mostly means that the property is false of the code as it stands: the negation is proved with a concrete witness (names
containing `_false`), together with the part that does hold.

| id | property | status | theorems | remarks |
|----|----------|--------|----------|---------|
| C01 | FIR upsampling by 2 is memory safe | proved | `C01_fir_up2_memory_safe` | every UB outcome of the model is excluded; any history, address, precision |
| C02 | FIR downsampling by 2 is memory safe | proved | `C02_fir_down2_memory_safe` | as C01 for DOWN |
| C03 | Cascaded ratios 4 and 8 are memory safe (FIR) | proved | `C03_fir_cascade_memory_safe` | ratios 4 and 8, internal temporaries included |
| C04 | process_block writes exactly the documented output and nothing else (FIR) | proved | `C04_output_frame`, `C04_contents_irrelevant` | FIR and IIR; independence of stack and buffer contents is bit-exact |
| C05 | FIR upsampling by 2 computes the half-band interpolation of the whole stream | proved | `C05_fir_up2` | exact arithmetic over any commutative ring, arbitrary (rounded) coefficients |
| C06 | FIR downsampling by 2 computes the half-band decimation of the whole stream | proved | `C06_fir_down2` | as C05 |
| C07 | Ratios 4 and 8 are the composition of their factor-2 stages | proved | `C07_cascade` | no laws of arithmetic; FIR and IIR |
| C08 | Block-size independence | proved | `C08_block_size_independent` | exact arithmetic; C09 is the bit-exact version |
| C09 | Bit-exact block-size independence without SSE | proved | `C09_block_size_independent` | bit-exact; also across allocators and builds, and for IIR with SSE |
| C10 | SSE and non-SSE FIR code agree | proved | `C10_sse_eq_fpu` | exact arithmetic; all ratios |
| C11 | Rounding-error bound for the FIR factor-2 outputs, SSE or not | proved | `C11_rounding_up2`, `C11_rounding_down2`, `C11_sse_up2`, `C11_sse_down2`, `C11_binary32`, `C11_binary32_sse` | any rounding for factor 2; binary32 with explicit numbers for all ratios |
| C12 | The samples of the input appear unchanged at delay() (FIR UP) | proved | `C12_samples_at_delay` | bit-exact, SSE or not |
| C13 | delay() of FIR downsampling is the exact centre of a symmetric kernel | proved | `C13_affine_down` | exact arithmetic; any conversion of the coefficients |
| C14 | delay() is never negative and has the documented granularity | partial | `C14_delay_nonneg_partial`, `C14_false_iir_granularity` | non-negativity for all configurations, granularity for FIR; the documented granularity is false for IIR (negation proved) |
| C15 | reset() is equivalent to constructing a new resampler | proved | `C15_reset_eq_new`, `C15_history_forgotten` | bit-exact, no laws of arithmetic |
| C16 | Configuration queries are constant | proved | `C16_queries_constant` | for any object and any arguments, legal or not |
| C17 | FIR resamplers forget: finite memory | proved | `C17_window_up`, `C17_window_down`, `C17_memory_bound`, `C17_forgets` | exact arithmetic |
| C18 | Linearity | proved | `C18_linear` | exact arithmetic; FIR and IIR |
| C19 | Time invariance | proved | `C19_time_invariant_up`, `C19_time_invariant_down` | exact arithmetic; FIR and IIR |
| C20 | Causality and streaming | proved | `C20_causal`, `C20_streaming`, `C20_false_sse_early` | sample-wise for everything but vectorised FIR (C20_false_sse_early: false there, as the statement says), block-wise for everything |
| C21 | FIR output is bounded by a fixed gain | proved | `C21_gain_bound` | exact arithmetic, coefficients accurate to 2^-24 |
| C22 | binary32 FIR computations on bounded signals do not overflow | proved | `C22_no_overflow` | all ratios |
| C23 | IIR stages are energy-bounded (stable) | proved | `C23_energy` | exact arithmetic, coefficients accurate to 2^-24; at every time, all ratios |
| C24 | IIR output decays to silence | partial | `C24_decays`, `C24_silent_float_partial`, `C24_false_sse_rings`, `C24_false_sse_rings_down`, `C24_false_sse_rings_up` | exact arithmetic: proved; binary32: proved (down to 2^-57 after a time independent of the session) except with SSE and an odd number of coefficients, where it rings forever (negation proved for 8 bits with every mode and ratio, for downsampling with 12 and 16 bits, and by 2 with 24 bits; not for the other odd ones) |
| C25 | IIR SSE and IIR FPU code agree | proved | `C25_iir_sse_eq_fpu_even`, `C25_iir_sse_eq_fpu_exact`, `C25_false_odd` | even stages bit for bit, all stages exactly; bit-identity is false for odd stages (proved) |
| C26 | An IIR stage is a pair of allpass chains | proved | `C26_iir_up`, `C26_iir_down`, `C26_iir_down_sse` | order of operations included; odd coefficient counts with SSE have an extra section with coefficient 1 |
| C27 | IIR process_block is memory safe | partial | `C27_iir_memory_safe_partial`, `C27_false_sse_down_reads_past_end`, `C27_false_zero_samples`, `C27_false_sse_down_iff` | false as stated: SSE down reads two floats past the end, FPU code processes one sample when n = 0 (negations proved); safe otherwise |
| C28 | Processing zero samples does nothing | partial | `C28_zero_samples_noop_partial`, `C28_false_zero_processed_as_one`, `C28_false_zero_processed_as_two` | false for factor 2 IIR FPU code (negations proved); holds for FIR and for ratios 4 and 8 |
| C29 | Block sizes that are not a multiple of the ratio (DOWN) | partial | `C29_odd_block_rejected_partial`, `C29_iir_odd_block_drops_sample`, `C29_false_desync` | odd blocks rejected by factor 2 FIR; ratio 4 desynchronises (negation proved) |
| C30 | Very large blocks | partial | `C30_large_blocks_partial`, `C30_false_large_blocks` | false for FIR UP by 2 with n >= 2^31 (negation proved) |
| C31 | Ratio 1 is the identity | partial | `C31_ratio1_identity_partial`, `C31_false_queries` | identity proved; order()/sse_enabled() dereference null (negation proved) |
| C32 | Every valid configuration is constructible and usable | proved | `C32_constructible`, `C32_false_iir_linear` | for all supported combinations; IIR with PREC_LINEAR is not usable (negation proved) |
| C33 | find_precision_for_bits picks the smallest sufficient precision | proved | `C33_find_precision`, `C33_find_precision_monotone`, `C33_find_precision_fixed` |  |
| C34 | precision_name is total and injective | proved | `C34_precision_name`, `C34_name_tells` |  |
| C35 | order() reports the number of coefficients actually used and grows with precision | proved | `C35_order`, `C35_order_monotone`, `C35_order_check_passes`, `C35_create_complete` |  |
| C36 | sse_enabled() tells the truth | proved | `C36_sse_enabled`, `C36_neon_iir_is_scalar` |  |
| C37 | AlignedArray: alignment, bounds, initialisation, destruction | partial | `C37_construct_partial`, `C37_ofVector_partial`, `C37_read`, `C37_write`, `C37_destroy`, `C37_lifetime_partial`, `C37_false_overflow`, `C37_false_malloc_fails` | proved whenever malloc succeeds and the size fits into size_t; false otherwise (negations proved) |
| C38 | AlignedArray can be copied safely | partial | `C38_false_copy` | false for every array of any length (negation proved) |
| C39 | Passband accuracy of FIR upsampling at every frequency | proved | `C39_passband_up`, `C39_passband_up_binary32` | all ratios, sums of sinusoids, disturbed by errors up to epsilon; real arithmetic with constants accurate to 2^-24, and binary32 arithmetic |
| C40 | Passband accuracy and stopband rejection of FIR downsampling at every frequency | proved | `C40_pass_stop_down`, `C40_pass_stop_down_binary32` | all ratios; stop band = frequencies that alias into the pass band; real arithmetic with constants accurate to 2^-24, and binary32 arithmetic |
| C41 | Unity DC gain | proved | `C41_dc_gain_fir`, `C41_dc_gain_iir` | FIR: explicit error; IIR: limit exactly 1 (exact arithmetic) |
| C42 | hiir split: low band equals the downsampler, low and high reconstruct the branches | proved | `C42_split_fpu`, `C42_split_sse`, `C42_bands_fpu`, `C42_bands_sse`, `C42_low_fpu_float`, `C42_false_sse_binary32` | bit-exact formulas for any sample type; bands equal in exact arithmetic, and in floating point for the FPU version. In binary32 the SSE low band can differ from process_block (overflow), shown by a witness |
| C43 | hiir in-place processing under the documented overlap | partial | `C43_up_fpu`, `C43_up_sse`, `C43_down_fpu`, `C43_down_sse`, `C43_lanes_irrelevant`, `C43_split_fpu_partial`, `C43_split_sse_partial`, `C43_false_split` | true for process_block; for process_block_split the asserts are too weak (negation proved), true if the two outputs are disjoint |
| C44 | Filter designer: coefficient count is positive | partial | `Designer.C44_false`, `Designer.C44_positive_partial` | false for small attenuations (negation proved for every transition bandwidth); true from 1 dB on |
| C45 | ipowp computes powers | proved | `Designer.C45_power`, `Designer.C45_negative` |  |
| C46 | Designer group delay is non-negative and additive | partial | `Designer.C46_cell`, `Designer.C46_additive`, `Designer.C46_filter`, `Designer.C46_false` | true for coefficients in [0, 1), with the sharper claim that it is the derivative of the phase; false for the documented coefficient 1 (0/0, negation proved) |
| C47 | Designer bisection reports success only on convergence | partial | `Designer.C47_false`, `Designer.C47_codes_partial` | false (negation proved): a design that does not converge within 1000 steps is reported as OK; what the codes do mean is proved |
| C48 | Designer series loops terminate | proved | `Designer.C48_terminates`, `Designer.C48_num`, `Designer.C48_den`, `Designer.C48_nome` | real arithmetic; integer overflow modelled (it ends the loop, too); result and explicit iteration bound for the values the designer uses |
| C49 | Published IIR delay constants match the coefficients | proved | `C49_constants` | rational enclosures of the trigonometric values, checked in the kernel |
| C50 | IIR stopband rejection at every frequency | partial | `C50_stop_band`, `C50_false_144dB` | whole resamplers, all ratios; exact coefficients: the dB number of the precision; coefficients of type float: 143 dB instead of 144 dB (that 144 dB are missed is proved), all other precisions as promised |
| C51 | test_filter_impl reports success | proved | `C51_self_test_exact`, `C51_self_test_safe` | result in exact arithmetic; memory safety for any arithmetic |
| C52 | Instances are independent | proved | `C52_instances_independent`, `C52_interleaving_succeeds` |  |
| C53 | Oversampling round trip | proved | `C53_round_trip` | all ratios, different precisions of the two resamplers allowed |
| C54 | Control flow does not depend on sample values | proved | `C54_outcome_data_independent` |  |
| C55 | No frequency is amplified by FIR resamplers | proved | `C55_no_frequency_amplified` |  |
| C56 | Frequency response of IIR downsampling | proved | `C56_response_down` | real arithmetic, constants exact or rounded to binary32 |
| C57 | Frequency response of IIR upsampling | proved | `C57_response_up` | real arithmetic, constants exact or rounded to binary32 |
| C58 | IIR resamplers have a flat pass band and amplify no frequency | proved | `C58_amplitude` |  |
| C59 | Oversampling round trip with IIR filters | proved | `C59_round_trip`, `C59_tone` | different precisions of the two resamplers allowed |
| C60 | delay() of IIR resamplers is their group delay at 1 kHz | partial | `C60_delay_up_partial`, `C60_delay_down_partial`, `C60_false` | false to the printed precision (negation proved: off by more than 0.011 samples for 48 dB); accuracy per precision proved |
| C61 | The designer's coefficient count is sufficient and minimal | proved | `Designer.C61_sufficient_minimal` | 1 dB to 10^9 dB |
| C62 | compute_phase_delay returns the phase delay | partial | `Designer.C62_false`, `Designer.C62_false_dc`, `Designer.C62_value_partial` | false (negation proved); what is returned instead is proved: one period minus the phase delay of the one-sample cell |
| C63 | The designer accepts its documented parameter ranges | partial | `Designer.C63_false`, `Designer.C63_total_partial` | false (negation proved) from half the sample rate on; proved below it, with the range of the coefficients |
| C64 | Sizes of the IIR tables are those of the designer | proved | `C64_sizes` | real arithmetic, interval certificates checked in the kernel |
| C65 | The IIR tables are what the designer computes | proved | `C65_coefficients`, `C65_mkiir` | real arithmetic; the whole output of mkiir per table: size, coefficients, delay constant |
| C66 | test_filter_impl never blames correct code | partial | `C66_false_binary32`, `C66_small_orders_partial`, `C66_tolerance_partial`, `C66_rand_partial` | false (negation proved): the tolerance is smaller than possible rounding errors; proved: the orders up to 13 always pass, and with the tolerance 0.00015 all orders would |
| C67 | Peak gain of the IIR resamplers | proved | `C67_peak_gain` | exact arithmetic; factor per mode, ratio and precision |
| C68 | Rounding errors of the IIR resamplers do not build up | partial | `C68_rounding_partial`, `C68_linear_partial`, `C68_false_sse_drift`, `C68_false_sse_drift_down` | false for SSE with an odd number of coefficients (negation proved for ratio 2 with 8, 12 and 24 bits, up and down: the error grows linearly, up to 0.0989 of full scale); proved without SSE and for even numbers; inputs of magnitude 2^-100 to 2^100. For every IIR configuration the errors grow at most linearly in sessions of up to 2^20 samples (C68_linear_partial). Whether they grow at all with odd stages of ratios 4 and 8 is neither proved nor refuted |
| C69 | IIR resamplers do not overflow | partial | `C69_no_overflow_partial`, `C69_linear_partial`, `C69_finite`, `C69_false_sse_down` | outputs finite: proved for every IIR configuration (inputs up to 2^36). Bound by the peak gain of C67: proved without SSE and for even numbers of coefficients (inputs of magnitude 2^-100 to 2^100); for SSE with an odd number: proved with an additional term that grows linearly with the length of the session, up to 2^20 samples (C69_linear_partial), and without that term the bound is false downsampling by 2 with 8, 12 or 24 bits (C69_false_sse_down). Upsampling by 2 and odd stages of ratios 4 and 8: neither proved nor refuted |
| C70 | Silence in, silence out | partial | `C70_fir_silent`, `C70_false_subnormals_up`, `C70_false_subnormals_down`, `C70_false_cascade_up`, `C70_false_cascade_down` | proved for all FIR configurations in binary32. False for IIR of every mode, ratio but 1, and precision: after an impulse the filters stay in a cycle of subnormal numbers for ever |
| C71 | A resampler recovers from infinities and NaNs | partial | `C71_fir_recovers`, `C71_false_iir` | proved for all FIR configurations in binary32. False for every IIR configuration but ratio 1: one bad sample and all later output is bad |
| C72 | The FIR tables are what the design scripts compute | proved | `C72_fir_tables_designed`, `C72_every_table` | real arithmetic; ultrwin is specified, not modelled (it is not part of the repository) |
| C73 | Constants are converted as if rounded once | proved | `C73_fir_taps`, `C73_iir_coefs` | binary64 to binary32, all tables, evaluated in the kernel |
| C74 | delay() in double | proved | `C74_delay_double` | binary64, every configuration |
| C75 | Every designed filter is stable | proved | `Designer.C75_range`, `Designer.C75_attenuation`, `Designer.C75_poles`, `Designer.C75_overflow` | real arithmetic with the literal PI and the truncated series; int overflow modelled |
| C76 | Delay of IIR resamplers across the band | proved | `C76_rises`, `C76_band_up`, `C76_band_down`, `C76_exact` | real arithmetic; millionths of a sample; at 20 kHz delay() for ratio 2 is off by 5.7 to 14.1 samples of the higher rate |
| C77 | Exact silence without subnormal numbers | partial | `C77_exactly_silent_partial`, `C77_times`, `C77_false_sse_rings` | proved without SSE and for even numbers of coefficients, in every format that flushes subnormal results; false for SSE with an odd number of coefficients (negation proved) |
| C78 | The accuracy thresholds of the tests hold at every frequency | partial | `C78_exact_up`, `C78_exact_down`, `C78_binary32_up_partial`, `C78_binary32_down_partial`, `C78_false_up`, `C78_false_down` | exact arithmetic: proved for all precisions; binary32: proved for 8 bits (up), 8 and 12 bits (down), false for 20 bits and for 24 bits without SSE (negation proved), the rest is undecided |
| C79 | Contracted multiplications and additions do no harm | proved | `C79_rounding`, `C79_two_programs`, `C79_passband_up`, `C79_pass_stop_down` | binary32, every choice of contractions |
| C80 | Contraction does no harm to the IIR resamplers either | proved | `C80_rounding`, `C80_linear`, `C80_two_programs` | binary32, every choice of contractions; C80_rounding without SSE or for even numbers of coefficients, C80_linear for every configuration up to 2^20 samples, as in C68 |
| C81 | Frequency response of IIR resamplers as computed | proved | `C81_down`, `C81_up`, `C81_down_linear`, `C81_up_linear`, `C81_down_contracted`, `C81_up_contracted` | binary32; the linear versions hold for every configuration up to 2^20 samples, the others for any length, without SSE or for even numbers of coefficients |
| C82 | Processing in place | partial | `C82_in_place_exact`, `C82_in_place_partial`, `C82_iir_up_assert`, `C82_false_fir_down_vec`, `C82_false_fir_up`, `C82_false_iir_up`, `C82_false_up4` | proved for ratio 1, DOWN by 4 and 8, UP by 4 and 8 up to 1024 samples, IIR DOWN, FIR DOWN by 2 without vector code, and short blocks of FIR resamplers with ratio 2; false otherwise (negation proved); with asserts enabled IIR UP by 2 stops in an assert |
| C83 | Amplitude responses, images and round trips | proved | `C83_response_down`, `C83_response_up`, `C83_round_trip`, `C83_subsample`, `C83_round_trip_binary32`, `C83_subsample_binary32` | responses in exact arithmetic, round trips also in binary32 |
| C84 | The thresholds for oversampling and subsampling hold at every frequency | partial | `C84_over_exact`, `C84_sub_exact`, `C84_over_binary32_partial` | exact arithmetic: proved for all thresholds; binary32: proved for oversampling with 8 bits; 16 bits are undecided |
| C85 | The error bound of testmultidelay | partial | `C85_up`, `C85_down`, `C85_over`, `C85_down_binary32`, `C85_up_binary32_partial`, `C85_over_binary32_partial` | exact arithmetic: proved for all modes, ratios and precisions; binary32: proved for downsampling, for upsampling except by 8 with 16 bits, and for oversampling by 2; the other cases are undecided |
| C86 | Input and output may be parts of one array | proved | `C86_disjoint_parts` | the part that is read includes the two samples behind the input that SSE IIR downsamplers read (C27) |
| C87 | Inverting the polarity is exact | proved | `C87_polarity` | binary32, and binary32 with FTZ (x86) or FZ (ARM); the sign of zero is not modelled |
| C88 | Changing the level by a power of two is exact | partial | `C88_power_of_two_partial`, `C88_any_exponent_partial`, `C88_any_exponent_binary32`, `C88_no_underflow_partial`, `C88_false_tiny` | proved for all configurations in binary32 for the output samples that are computed without underflow and overflow; proved for FIR in binary32 with samples that are multiples of 2^-25 before and after (24 bit audio); false for the smallest samples, FIR and IIR (negation proved) |
| C89 | Resamplers release exactly what they allocate | proved | `C89_safe`, `C89_memory`, `C89_no_leak`, `C89_moves`, `C89_moved_ratio_one`, `C89_false_use_after_move`, `C89_false_malloc` | the two hypotheses are needed: using an object that was moved from is a null dereference (except for ratio 1), and a failing malloc is a write through a null pointer (both proved) |
| C90 | Overshoot is bounded for all monotone signals | proved | `C90_overshoot`, `C90_overshoot_binary32`, `C90_rising`, `C90_falling`, `C90_sharp` | exact arithmetic with exact coefficients or coefficients rounded to float, and binary32; thousandths; rising and falling once the filters are filled |
| C91 | The command line of the test program | proved | `Tool.C91_parse`, `Tool.C91_unambiguous`, `Tool.C91_help`, `Tool.C91_safe`, `Tool.C91_ranges`, `Tool.C91_command`, `Tool.C91_atoi`, `Tool.C91_numeral` | atof is any function from strings to an ordered type with 0 and 1; atoi is modelled |
| C92 | The test program is free of undefined behaviour for every block size it accepts | partial | `Tool.C92_perf_partial`, `Tool.C92_accuracy_partial`, `Tool.C92_false_perf`, `Tool.C92_false_accuracy` | proved for block sizes below 2^31 (performance) and 2^30 (accuracy); false above (negation proved: for every block size from 2^31 on the performance test writes out of bounds, from 2^30 on an int can overflow in the accuracy test). malloc is assumed to succeed |
| C93 | The accuracy test compares every sample with the response to its own test signal | proved | `Tool.C93_numbers`, `Tool.C93_compared`, `Tool.C93_terminates`, `Tool.C93_spectrum` | C93_compared in exact arithmetic; C93_terminates for block sizes from 4 on and under a hypothesis on rand() |
| C94 | A passed accuracy test bounds the error | partial | `Tool.C94_verdict_partial`, `Tool.C94_false_one_sided` | false (negation proved): the absolute value is missing, samples may be too small by any amount; proved: no sample is too large by more than t |
| C95 | The impulse test prints the whole impulse response | partial | `Tool.C95_impulse`, `Tool.C95_complete_partial`, `Tool.C95_false_subsampling` | what is printed: proved for all. Complete: proved except for subsampling with 20 and 24 bits, where the response has nonzero samples after the 150 printed (negation proved) |
| C96 | testresampler check passes | proved | `Tool.C96_check_passes`, `Tool.C96_frequencies` | real arithmetic (samples, phases, sin, log); table constants exact or accurate to 2^-24 |
| C97 | The smaller test programs are free of undefined behaviour | partial | `Tool.C97_addr`, `Tool.C97_simple`, `Tool.C97_multiperf_partial`, `Tool.C97_multidelay_partial`, `Tool.C97_downmulti_partial`, `Tool.C97_distort`, `Tool.C97_sawquality`, `Tool.C97_false_multiperf`, `Tool.C97_false_multidelay`, `Tool.C97_false_linear` | false as stated (negations proved): testmultiperf and testmultidelay with iir-sse read behind an array, IIR filters with 1 bit dereference null; holds otherwise. testdistort: fir and iir, not zita. testsawquality: an int overflows for frequencies that are not positive (C116) |
| C98 | Upsampling, a function of every sample, downsampling | proved | `Tool.C98_saturation`, `Tool.C98_block_size_independent`, `Tool.C98_exact` |  |
| C99 | testmultidelay stays within the bound it prints | proved | `Tool.C99_multidelay`, `Tool.C99_differences` | real arithmetic (samples, sin); table constants exact or accurate to 2^-24 |
| C100 | Unsupported ratios do no harm | partial | `C100_new_partial`, `C100_construct_partial`, `C100_reset_partial`, `C100_like_8_partial`, `C100_false_null`, `C100_false_overrun`, `C100_false_gap` | false as stated (negations proved): ratios 0, 3, 5, 6, 7 dereference null, ratios above 8 write n / 8 (8 * n) samples; holds for construction, delay, reset and blocks of no samples |
| C101 | The exact contract of process_block | proved | `C101_exact_contract` |  |
| C102 | The example of the documentation | proved | `Tool.C102_reset`, `Tool.C102_bounded`, `Tool.C102_continuous`, `Tool.C102_static`, `Tool.C102_documented` | the bounds are for exact arithmetic with exact or rounded constants; reset bit for bit |
| C103 | No signal gains power | proved | `C103_power`, `Tool.C103_saturation` | exact arithmetic in the reals with exact or rounded constants; for IIR filters see C23 |
| C104 | Upsampling loses nothing | proved | `C104_isometry`, `C104_energy`, `C104_injective`, `C104_fir` | IIR: exact arithmetic in any (for the limits Archimedean) ordered field, with exact or rounded constants; FIR: every arithmetic |
| C105 | Oversampling by 2 with IIR filters is exactly an allpass filter | proved | `C105_all_pass`, `C105_injective`, `C105_isometry`, `Tool.C105_saturation` | exact arithmetic in any (for the limits Archimedean) ordered field, with exact or rounded constants |
| C106 | Splitting into two bands with hiir loses nothing | proved | `C106_energy`, `C106_lossless`, `C106_injective`, `C106_mirror` | exact arithmetic in any (for the limit Archimedean) ordered field |
| C107 | Downsampling loses exactly what it has to | proved | `C107_onto`, `C107_half` | exact arithmetic in any ordered field, with exact or rounded constants; FIR and IIR |
| C108 | FIR resamplers treat both directions of time alike | proved | `C108_reversal` | exact arithmetic over any commutative ring, arbitrary (rounded) constants; FIR |
| C109 | IIR resamplers keep the integral of a signal | proved | `C109_up`, `C109_down` | exact arithmetic in an Archimedean ordered field; coefficients with a relative error of at most 2^-24 |
| C110 | FIR resamplers keep the integral of a signal, to the accuracy of constant signals in the other direction | proved | `C110_integral` | exact arithmetic in an ordered field; coefficients with a relative error of at most 2^-24 |
| C111 | Upsampling and downsampling are transposes of each other | proved | `C111_iir`, `C111_fir`, `C111_constants` | exact arithmetic over any commutative ring with 1/2; arbitrary constants (IIR), constants for UP twice those for DOWN (FIR), which is proved for the constants rounded to binary32 |
| C112 | Filtering before or after resampling | proved | `C112_up`, `C112_down` | exact arithmetic in any field of characteristic 0, arbitrary (rounded) constants |
| C113 | round_int rounds to the nearest integer | partial | `C113_nearest_partial`, `C113_overflow`, `C113_false` | binary64, including the rounding of the sum; holds for every double but one, for which the negation is proved |
| C114 | Spectra in the test programs show amplitudes | proved | `Tool.C114_error_spectrum`, `Tool.C114_saw_spectrum`, `Tool.C114_window` | real numbers for float and double; the transform of FFTW is modelled by the sum it is documented to compute |
| C115 | testdownmulti looks at the whole signal | partial | `Tool.C115_false`, `Tool.C115_normalize_partial`, `Tool.C115_covers_partial` | false of the code; what the window covers and the value of normalize are proved |
| C116 | testsawquality tests a band limited sawtooth | partial | `Tool.C116_saw_partial`, `Tool.C116_false` | real numbers for float and double; the two theorems cover all frequencies |
| C117 | testdownmulti tests all multiples of 100 Hz | proved | `Tool.C117_frequencies` | binary32, with the rounding of the additions |
| C118 | float and double operations are those of IEEE 754 | proved | `C118_float`, `C118_double`, `C118_operations`, `C118_ftz`, `C118_fz` | infinities and NaNs are identified, the sign of zero is not modelled |
| C119 | Switching subnormal numbers off does not change the output | partial | `C119_flush_partial`, `C119_false_tiny` | proved for output samples without underflow and overflow on the way; false for samples of at most 2^-92 with every mode, ratio but 1 and precision from 8 bits (negation proved) |
