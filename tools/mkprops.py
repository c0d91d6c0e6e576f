#!/usr/bin/env python3
"""Writes /verif/properties.jsonl (one JSON object per line) from the table below."""
import json
HH="include/pandaresampler.hh"; CC="include/pandaresampler/pandaresampler.cc"
H="include/pandaresampler/hiir/"
P=[]
def p(title, statement, quantifier, why, *anchors):
    P.append(dict(id="C%02d"%(len(P)+1), title=title, statement=statement, quantifier=quantifier,
                  why_tests_cant=why, anchors=list(anchors)))

UPA=[CC+":Resampler2::Upsampler2::process_block", CC+":process_block_unaligned", CC+":process_block_aligned"]
DNA=[CC+":Resampler2::Downsampler2::process_block", CC+":deinterleave2"]
PB=HH+":Resampler2::process_block"

p("FIR upsampling by 2 is memory safe",
  "A Resampler2(UP, 2, any precision, sse on/off, FILTER_FIR) called with process_block(input, n, output) on an input of exactly n readable floats and an output of exactly 2n writable floats terminates, reads nothing outside those n floats, writes nothing outside the 2n floats, and never performs a misaligned 16-byte vector load.",
  "every precision, every n < 2^31, every input address (any alignment), every previous call history, SSE and non-SSE",
  "testaddr tries n < 100 with one malloc alignment and a fresh instance; the tightness of the (i + 6) look-ahead guard depends on n, alignment and order together.",
  *UPA, CC+":fir_process_4samples_sse")
p("FIR downsampling by 2 is memory safe",
  "A Resampler2(DOWN, 2, ..., FILTER_FIR) called on an input of exactly n (even) floats and an output of exactly n/2 floats terminates, stays inside both buffers and performs no misaligned vector load.",
  "every precision, every even n < 2^32, every address, every history, SSE and non-SSE",
  "internal stack buffers hide over-reads from address sanitizers (testaddr says so itself).",
  *DNA)
p("Cascaded ratios 4 and 8 are memory safe (FIR)",
  "For ratio 4 and 8, process_block stays inside the caller's buffers and inside its own fixed-size temporaries, and writes exactly n*ratio (UP) or n/ratio (DOWN, n a multiple of ratio) output samples.",
  "ratios 4 and 8, both modes, every precision, every n < 2^32 (multiple of ratio for DOWN), every history",
  "the temporaries are sized for exactly the worst chunk; every chunk pattern of every n must fit.",
  PB)
p("process_block writes exactly the documented output and nothing else (FIR)",
  "After process_block, output positions 0..n*ratio-1 (UP) or 0..n/ratio-1 (DOWN) hold the resampled signal and every other position of a larger output buffer is unchanged; the result does not depend on what the output buffer or the stack contained before.",
  "every ratio, precision, n, previous buffer contents, stack garbage, history",
  "a test only sees one garbage pattern.",
  PB, *UPA)
p("FIR upsampling by 2 computes the half-band interpolation of the whole stream",
  "In exact arithmetic the concatenation of all outputs produced since construction or reset is: output[2m] = sum_{i<N} taps[i]*x[m-(N-1)+i] and output[2m+1] = x[m-(N-1)+N/2], where x is the concatenation of all inputs since then, zero before it, N the filter order and taps twice the published coefficients.",
  "every precision, every list of calls with every block sizes and alignments, SSE and non-SSE",
  "the history hand-over between calls has a short-block and a long-block path; all interleavings of block sizes are an infinite family.",
  *UPA)
p("FIR downsampling by 2 computes the half-band decimation of the whole stream",
  "In exact arithmetic the concatenated output is output[m] = sum_{i<N} taps[i]*x[2(m-(N-1)+i)] + 0.5*x[2(m-(N-1)+N/2-1)+1] over the concatenated (zero-preceded) input.",
  "every precision, every list of calls with even block sizes (including blocks longer than the internal 2048-sample chunk), SSE and non-SSE",
  "as C05, plus the internal block splitting.", *DNA)
p("Ratios 4 and 8 are the composition of their factor-2 stages",
  "The output stream of a ratio 4/8 resampler equals feeding the input stream through its two/three factor-2 stages in order (2,4,8 for UP; 8,4,2 for DOWN), independently of the 1024-sample internal chunking.",
  "ratios 4 and 8, both modes, every precision, every list of calls with legal block sizes, FIR and IIR",
  "chunk boundaries interact with each stage's history hand-over.", PB)
p("Block-size independence",
  "Feeding the same signal in different block sizes gives the same output signal (in exact arithmetic, SSE or not).",
  "every two partitions of the same signal into legal blocks, every configuration (FIR and IIR), every alignment",
  "there are infinitely many partitions.", PB, *UPA, *DNA)
p("Bit-exact block-size independence without SSE",
  "With use_sse_if_available = false, two partitions of the same signal give bit-identical output whatever the rounding behaviour of float addition and multiplication (no algebraic law of arithmetic is used).",
  "every two partitions of the same signal into legal non-empty blocks, every configuration, every interpretation of float arithmetic",
  "bit-exactness over all partitions cannot be sampled.", PB, *UPA, *DNA, H+"Upsampler2xFpuTpl.hpp:process_block")
p("SSE and non-SSE FIR code agree",
  "In exact arithmetic an SSE and a non-SSE FIR resampler with the same mode, ratio and precision produce the same output for the same input.",
  "every configuration, every call history, every alignment",
  "fir_test_filter_sse checks random data for orders < 64 and only one group of four outputs.",
  CC+":fir_process_4samples_sse", CC+":fir_compute_sse_taps", CC+":fir_process_one_sample")
p("Rounding-error bound for the FIR factor-2 outputs, SSE or not",
  "Under the standard rounding model |rnd(x)-x| <= u|x|+eta every sample of a factor-2 FIR resampler differs from the exactly computed filter value by at most an explicit bound in u, eta, the order and sum |tap|*|x|; hence SSE and non-SSE outputs differ by at most twice that.",
  "every precision, call history, input values (no overflow), every rounding function of that kind, in particular IEEE binary32 round-to-nearest-even",
  "the worst case over all inputs cannot be found by random data.",
  CC+":fir_process_4samples_sse", CC+":fir_process_one_sample")
p("The samples of the input appear unchanged at delay() (FIR UP)",
  "For FIR upsampling, output[delay() + ratio*k] is bit-identical to input[k] for all k, for any interpretation of float arithmetic, once enough samples have been fed.",
  "ratios 1,2,4,8, every precision, SSE or not, every input, every partition into blocks",
  "testmultidelay compares one sine at ratio/precision points, within a tolerance.",
  HH+":Resampler2::delay", CC+":Upsampler2::delay")
p("delay() of FIR downsampling is the exact centre of a symmetric kernel",
  "For FIR downsampling the impulse response is symmetric about delay(): an affine input signal a+b*t comes out, once the filter is filled, as G*(a+b*(ratio*(m-delay()))), with G the DC gain; this holds for ratios 2, 4 and 8.",
  "every precision, ratio, every affine signal, every time index after start-up, SSE or not (exact arithmetic)",
  "one test signal cannot fix a group delay.",
  HH+":Resampler2::delay", CC+":Downsampler2::delay")
p("delay() is never negative and has the documented granularity",
  "delay() >= 0 for every valid configuration; for factor 2 it is a multiple of 0.5 (of 1.0 for upsampling).",
  "every mode, ratio in {1,2,4,8}, precision, filter type",
  "the header guarantees it for all configurations; the tests never read delay() of IIR configurations.",
  HH+":Resampler2::delay", CC+":create_impl_iir")
p("reset() is equivalent to constructing a new resampler",
  "After reset(), every later sequence of calls returns bit-identical output to the same sequence on a freshly constructed resampler of the same configuration.",
  "every configuration, every history before the reset, every sequence of calls after it, every interpretation of arithmetic",
  "needs all pairs of histories; no test calls reset().",
  HH+":Resampler2::reset", CC+":Upsampler2::reset", H+"Upsampler2xFpuTpl.hpp:clear_buffers")
p("Configuration queries are constant",
  "order(), delay() and sse_enabled() never change over the life of a resampler, whatever is processed or reset.",
  "every configuration, every sequence of process_block/reset calls",
  "universal over histories.", HH+":Resampler2::order", HH+":Resampler2::delay", HH+":Resampler2::sse_enabled")
p("FIR resamplers forget: finite memory",
  "Feeding a FIR resampler enough zero samples brings it to a state whose later outputs equal those of a reset resampler; each output depends only on a bounded window of past input.",
  "every FIR configuration, every earlier history",
  "universal over histories.", *UPA, *DNA)
p("Linearity",
  "In exact arithmetic the output for the sample-wise sum of two input signals is the sum of the outputs, and scaling the input scales the output; a zero input gives a zero output.",
  "every configuration (FIR and IIR, SSE or not), every pair of signals, every scalar",
  "universal over signals.", PB)
p("Time invariance",
  "Prepending k*(ratio for DOWN, 1 for UP) zero samples to the input prepends the corresponding number of zero samples to the output and changes nothing else (exact arithmetic).",
  "every configuration, every signal, every k", "universal over signals and shifts.", PB)
p("Causality and streaming",
  "The output produced for a block never depends on samples of later blocks; with SSE off, each single output sample depends only on input samples up to its own position, whatever float values (including infinities and NaN) follow.",
  "every configuration, every two inputs sharing a prefix",
  "hyperproperty: relates two runs.", PB, CC+":fir_process_4samples_sse")
p("FIR output is bounded by a fixed gain",
  "|output| <= G * max|input| with an explicit constant G per configuration.",
  "every FIR configuration, every signal, every length (exact arithmetic)",
  "worst-case signals are not sampled by tests.", CC+":create_impl")
p("binary32 FIR computations on bounded signals do not overflow",
  "If every input sample is at most 2^100 in absolute value, every output of a factor-2 FIR stage computed with binary32 rounding stays below 2^127.",
  "every precision, mode, call history, SSE or not", "worst case over all signals.",
  CC+":fir_process_one_sample", CC+":fir_process_4samples_sse")
p("IIR stages are energy-bounded (stable)",
  "In exact arithmetic the energy of an IIR upsampler's output is at most twice the input energy per factor-2 stage, and an IIR downsampler's output energy is at most half the input energy per stage, for every finite input.",
  "every precision and ratio, every input signal of every length, FPU and SSE code",
  "stability is a statement about unbounded time.", H+"StageProcFpu.hpp:process_sample_pos", H+"StageProcSseV2.hpp:process_sample_pos_rec")
p("IIR output decays to silence",
  "After the input becomes silent the IIR output tends to zero.",
  "every precision, every input, FPU and SSE code", "limit statement.",
  H+"StageProcFpu.hpp", H+"Upsampler2xSse.hpp:ctor")
p("IIR SSE and IIR FPU code agree",
  "The SSE and the FPU implementation of an IIR stage give the same output: bit-identical for stages with an even number of coefficients, equal in exact arithmetic for all stages.",
  "every coefficient array, every input, every history", "universal over inputs and coefficient counts.",
  H+"StageProcSseV2.hpp", H+"StageProcFpu.hpp", H+"Upsampler2xSse.hpp:set_coefs", H+"Downsampler2xSse.hpp")
p("An IIR stage is a pair of allpass chains",
  "IIR upsampling: output[2n], output[2n+1] are the input filtered by the chains of first-order allpass sections y[n]=a(x[n]-y[n-1])+x[n-1] with the even-indexed resp. odd-indexed coefficients; IIR downsampling: half the sum of the chains applied to the odd resp. even input samples.",
  "every coefficient count and values, every input stream and partition", "universal over streams.",
  H+"StageProcFpu.hpp", H+"Upsampler2xFpuTpl.hpp", H+"Downsampler2xFpuTpl.hpp")
p("IIR process_block is memory safe",
  "IIR resamplers read only the n input samples and write only the documented outputs.",
  "every configuration, every n, FPU and SSE", "over-reads of stack or heap neighbours are invisible to value tests.",
  H+"Downsampler2xSse.hpp:process_block", H+"Upsampler2xFpuTpl.hpp:process_block")
p("Processing zero samples does nothing",
  "process_block(input, 0, output) reads and writes nothing and leaves the later behaviour unchanged.",
  "every configuration, every state", "needs equality of all future behaviour.",
  PB, H+"Upsampler2xFpuTpl.hpp:process_block", H+"Downsampler2xFpuTpl.hpp:process_block")
p("Block sizes that are not a multiple of the ratio (DOWN)",
  "Odd sample counts passed to a factor-2 FIR downsampler are rejected with no effect on output or state; for ratios 4 and 8 a block size not a multiple of the ratio must not desynchronise the stages.",
  "every precision, every such n, every state", "state corruption only shows in later calls.",
  CC+":Downsampler2::process_block", PB)
p("Very large blocks",
  "process_block is correct for every n that fits its uint parameter.",
  "every n < 2^32", "needs 16 GiB buffers to run.", CC+":Upsampler2::process_block_aligned")
p("Ratio 1 is the identity",
  "Ratio 1 copies n input samples to the output for both modes, has delay 0, and reset() has no effect; every query is usable.",
  "every n, every input, every history", "universal; order()/sse_enabled() are never tested for ratio 1.",
  PB, HH+":Resampler2::order", HH+":Resampler2::sse_enabled")
p("Every valid configuration is constructible and usable",
  "For mode in {UP,DOWN}, ratio in {1,2,4,8}, each Precision, SSE on/off and filter type, the constructor creates every stage that process_block, delay, reset will use.",
  "all configurations on all target platforms (SSE, NEON, none)", "the cross product with platform macros is never tested on one machine.",
  CC+":Resampler2::Resampler2", CC+":init_stage", CC+":create_impl", CC+":create_impl_iir", CC+":create_impl_iir_with_coeffs")
p("find_precision_for_bits picks the smallest sufficient precision",
  "For bits <= 24 the result is the least Precision whose bit count is >= bits; above 24 it is the best one; it is monotone in bits.",
  "every unsigned int", "tests use six values.", CC+":find_precision_for_bits")
p("precision_name is total and injective",
  "Each Precision has its own name and every other value gets the 'unknown' name.",
  "every enum value", "enumeration of arbitrary integers cast to the enum.", CC+":precision_name")
p("order() reports the number of coefficients actually used and grows with precision",
  "order() is the number of coefficients of the first stage and is non-decreasing in the precision; the internal order check never fails.",
  "every configuration with ratio >= 2", "cross product.", HH+":order", HH+":create_impl_with_coeffs")
p("sse_enabled() tells the truth",
  "sse_enabled() is true exactly when the first stage runs vector code: requested and compiled in.",
  "every configuration and platform", "platform macros.", HH+":sse_enabled", CC+":sse_available")
p("AlignedArray: alignment, bounds, initialisation, destruction",
  "data is 64-byte aligned, all n elements lie inside the malloc block, all elements are initialised to zero (or to the vector's elements), and the destructor destroys each element once, last first, then frees once.",
  "every n, every malloc result", "malloc returns few alignments in practice.", HH+":AlignedArray")
p("AlignedArray can be copied safely",
  "Copying an AlignedArray and destroying both copies releases each allocation once.",
  "every program that copies one", "tests never copy one.", HH+":AlignedArray")
p("Passband accuracy of FIR upsampling at every frequency",
  "Upsampling a sinusoid of any frequency up to 18 kHz (at 44.1 kHz) by 2 yields, once the filter is filled, the ideally delayed sinusoid at the doubled rate up to an explicit error per precision (the accuracy promised for the precision, as tested by testresampler).",
  "every real frequency in the passband, every phase and amplitude, every time, SSE or not", "tests scan a 50 Hz grid.",
  CC+":create_impl", "tests/testresampler.cc:check_accuracy_full")
p("Passband accuracy and stopband rejection of FIR downsampling at every frequency",
  "Downsampling a passband sinusoid yields the ideally delayed sinusoid within an explicit error; a stopband sinusoid is attenuated below an explicit level.",
  "every real frequency in pass/stop band, phase, amplitude, time", "tests scan a grid.",
  CC+":create_impl", "tests/testresampler.cc", "tests/testdownmulti.cc")
p("Unity DC gain",
  "A constant input comes out as the same constant up to an explicit relative error per precision.",
  "every configuration, every constant, every time after start-up", "universal.", CC+":create_impl", CC+":create_impl_iir")
p("hiir split: low band equals the downsampler, low and high reconstruct the branches",
  "process_block_split's low output equals process_block's output and low+high, low-high give back the two polyphase branch signals.",
  "every coefficient set, input, history; FPU and SSE", "unused by the tests.", H+"Downsampler2xFpuTpl.hpp:process_sample_split", H+"Downsampler2xSse.hpp:process_sample_split")
p("hiir in-place processing under the documented overlap",
  "When input and output overlap as permitted by the asserts, the result is the same as with disjoint buffers.",
  "every n, every permitted overlap, every state", "overlap geometry is infinite; never tested.",
  H+"Downsampler2xFpuTpl.hpp:process_block", H+"Upsampler2xFpuTpl.hpp:process_block")
p("Filter designer: coefficient count is positive",
  "compute_order returns an odd number >= 3 and compute_nbr_coefs_from_proto a positive number for every specification in range.",
  "every attenuation > 0 and 0 < transition < 1/2", "real parameters.", H+"PolyphaseIir2Designer.cpp:compute_order")
p("ipowp computes powers", "ipowp(x, n) = x^n.", "every x, every n >= 0", "universal.", H+"fnc.hpp:ipowp")
p("Designer group delay is non-negative and additive",
  "compute_group_delay is >= 0 for every coefficient in [0,1) and frequency; the group delay of a filter is the sum over its even-indexed cells.",
  "every coefficient and frequency, both modes", "real parameters.", H+"PolyphaseIir2Designer.cpp:compute_group_delay")
p("Designer bisection reports success only on convergence",
  "compute_coefs_spec_order_gdly returns ResCode_OK only if the designed group delay is within prec of the request.",
  "every specification", "needs a non-converging specification.", H+"PolyphaseIir2Designer.cpp:compute_coefs_spec_order_gdly")
p("Designer series loops terminate",
  "The do-while loops of compute_acc_num and compute_acc_den terminate for every 0 < q < 1.",
  "every q, order, c", "termination.", H+"PolyphaseIir2Designer.cpp:compute_acc_num")
p("Published IIR delay constants match the coefficients",
  "The group delay constant passed for each IIR stage equals the designer's group delay of its coefficients at 1 kHz (rate 44100*stage) to the printed precision.",
  "all 15 stages (exact trigonometric value, not a float evaluation)", "a float evaluation has its own error.",
  CC+":create_impl_iir", "filter-design/mkiir.cc")
p("IIR stopband rejection at every frequency",
  "Each IIR downsampling stage attenuates every stopband frequency by at least the dB number of its precision.",
  "every real frequency of the stopband", "tests scan a grid.", CC+":create_impl_iir")
p("test_filter_impl reports success",
  "test_filter_impl returns true (exact arithmetic) whatever the random data, and accesses only its own buffers.",
  "every random sequence, every order it tries", "it is itself a random test.", CC+":fir_test_filter_sse")
p("Instances are independent",
  "Interleaving calls on several resamplers gives each the output it would have alone.",
  "every interleaving of every number of instances", "schedules.", HH+":Resampler2")
p("Oversampling round trip",
  "UP by 2 followed by DOWN by 2 (FIR, exact arithmetic) reproduces a passband sinusoid with total delay ups.delay()/2 + downs.delay() within an explicit error.",
  "every passband frequency, phase, amplitude, time", "tests scan a grid.", "tests/testresampler.cc", "tests/testmultidelay.cc")
p("Control flow does not depend on sample values",
  "Whether a program's calls succeed, and which undefined behaviour they hit if not, depends on constructor arguments, block sizes and buffer placement only, never on the samples (silence, denormals, infinities and NaN are all the same).",
  "every constructor argument, every list of calls (legal or not), every two sets of sample data", "sample data are unbounded.",
  HH+":Resampler2.process_block")
p("No frequency is amplified by FIR resamplers",
  "For every finite sum of sinusoids, whatever their frequencies (pass band, transition band, stop band), output samples are at most (1 + explicit small error per precision) times the sum of the amplitudes once the filters are filled.",
  "every list of frequencies, phases and amplitudes, every time, every mode, ratio, precision", "frequencies are real numbers; tests scan a grid in the pass band only.",
  CC+":create_impl", "tests/testresampler.cc")
p("Frequency response of IIR downsampling",
  "Whatever sinusoids are fed to an IIR downsampler, the output tends to the same sinusoids (at the lower rate), each with the amplitude and phase response computed from the coefficient tables; what remains of the start-up transient and of earlier disturbances decays geometrically.",
  "every list of frequencies, phases, amplitudes, every disturbance of the first samples, every time, ratio, precision, SSE or not", "frequencies and times are unbounded.",
  CC+":create_impl_iir", H+"Downsampler2xFpuTpl.hpp:process_sample", H+"Downsampler2xSse.hpp:process_sample")
p("Frequency response of IIR upsampling",
  "Pass band sinusoids fed to an IIR upsampler come out at the higher rate with the amplitude and phase response computed from the coefficient tables, and mirror images attenuated by the dB number of the precision.",
  "every list of pass band frequencies, phases, amplitudes, every disturbance of the first samples, every time, ratio, precision, SSE or not", "frequencies and times are unbounded.",
  CC+":create_impl_iir", H+"Upsampler2xFpuTpl.hpp:process_sample", H+"Upsampler2xSse.hpp:process_sample")
p("IIR resamplers have a flat pass band and amplify no frequency",
  "The amplitude response of an IIR resampler is at most 1 at every frequency, and at least 1 - 3 a^2 in the pass band, where a is the stop band attenuation.",
  "every real frequency, ratio and precision", "frequencies are real numbers; tests scan a grid.",
  CC+":create_impl_iir", "tests/testresampler.cc:check_accuracy_full")
p("Oversampling round trip with IIR filters",
  "Pass band sinusoids that are upsampled and downsampled again by IIR resamplers come out at the same frequency with both amplitude and phase responses applied, up to the attenuated mirror images.",
  "every list of pass band frequencies, phases, amplitudes, every time, ratio, every two precisions", "tests scan a grid.",
  CC+":create_impl_iir", "tests/testmultidelay.cc")
p("delay() of IIR resamplers is their group delay at 1 kHz",
  "delay() of an IIR resampler is the group delay of the whole filter (both branches, all stages) at 1 kHz for a lower rate of 44.1 kHz, to the printed precision.",
  "every IIR configuration, exact coefficients or rounded to float", "the group delay is a derivative; tests compare sampled signals with a tolerance.",
  CC+":IIRUpsampler2", CC+":IIRDownsampler2", "filter-design/mkiir.cc:mk_group_delay")
p("The designer's coefficient count is sufficient and minimal",
  "compute_nbr_coefs_from_proto returns the smallest number of coefficients for which compute_atten_from_order_tbw reaches the demanded attenuation.",
  "every attenuation and transition bandwidth in range", "parameters are real numbers.",
  H+"PolyphaseIir2Designer.cpp:compute_nbr_coefs_from_proto", H+"PolyphaseIir2Designer.cpp:compute_atten_from_order_tbw")
p("compute_phase_delay returns the phase delay",
  "compute_phase_delay returns the phase delay of a cell in samples for every documented argument.",
  "every coefficient in [0,1], every frequency", "parameters are real numbers.",
  H+"PolyphaseIir2Designer.cpp:compute_phase_delay")
p("The designer accepts its documented parameter ranges",
  "compute_coefs_spec_order_gdly fails no assertion for measurement frequencies in [0, 1) and other parameters as documented.",
  "every documented parameter", "parameters are real numbers.",
  H+"PolyphaseIir2Designer.cpp:compute_coefs_spec_order_gdly")
p("Sizes of the IIR tables are those of the designer",
  "The number of coefficients of each of the 15 IIR tables is what mkiir computes for its stage and precision.",
  "all 15 tables (exact real arithmetic, not a float evaluation)", "the designer is not run by any test; the claim is about real arithmetic.",
  "filter-design/mkiir.cc:main", CC+":create_impl_iir")
p("The IIR tables are what the designer computes",
  "Each coefficient of the 15 IIR tables is the coefficient compute_coefs_spec_order_tbw computes (in exact arithmetic), within 1e-12.",
  "all coefficients of all 15 tables", "the designer is not run by any test; the claim is about real arithmetic.",
  "filter-design/mkiir.cc:main", H+"PolyphaseIir2Designer.cpp:compute_coefs_spec_order_tbw", CC+":create_impl_iir")
p("test_filter_impl never blames correct code",
  "test_filter_impl returns true in float and double arithmetic whatever rand() returns (the SSE code it tests is correct, see C10).",
  "every sequence of values of rand()", "it is itself a random test: a run sees one sequence.",
  CC+":fir_test_filter_sse")
p("Peak gain of the IIR resamplers",
  "In exact arithmetic no output sample of an IIR resampler exceeds the largest input sample by more than a small factor that depends on mode, ratio and precision only.",
  "every IIR configuration, every session, every input", "the worst input is not known in advance; the filters have infinite memory.",
  CC+":IIRUpsampler2", CC+":IIRDownsampler2", CC+":create_impl_iir")
p("Rounding errors of the IIR resamplers do not build up",
  "In binary32 every output sample of an IIR resampler is finite and within a bound, proportional to the largest input sample and independent of the length of the session, of what exact arithmetic with exact coefficients gives.",
  "every IIR configuration (FPU and SSE), every session of any length, every finite input of ordinary magnitude", "errors of a recursive filter can accumulate over any time; the exact result is not computable in floats.",
  H+"StageProcFpu.hpp:process_sample_pos", H+"StageProcSseV2.hpp:process_sample_pos", CC+":IIRUpsampler2", CC+":IIRDownsampler2")
p("IIR resamplers do not overflow",
  "In binary32 the output samples of an IIR resampler are finite and bounded by the peak gain of C67 times the largest input sample.",
  "every IIR configuration (FPU and SSE), every session, every finite input of ordinary magnitude", "the worst input is not known in advance.",
  H+"StageProcFpu.hpp:process_sample_pos", H+"StageProcSseV2.hpp:process_sample_pos", CC+":IIRUpsampler2", CC+":IIRDownsampler2")
p("Silence in, silence out",
  "After enough input samples that are exactly zero the output samples are exactly zero (no denormal numbers linger in the filter).",
  "every configuration, every session, every earlier input (infinities and NaN included)", "needs all earlier inputs and all lengths of silence.",
  CC+":Upsampler2", CC+":Downsampler2", H+"StageProcFpu.hpp:process_sample_pos", H+"StageProcSseV2.hpp:process_sample_pos")
p("A resampler recovers from infinities and NaNs",
  "The effect of an input sample that is infinite or NaN ends: output samples computed from finite input samples only are finite and as exact as if the bad sample had never been there.",
  "every configuration, every session, every number and position of bad samples", "needs all positions, values and block structures.",
  CC+":Upsampler2", CC+":Downsampler2", H+"StageProcFpu.hpp:process_sample_pos", H+"StageProcSseV2.hpp:process_sample_pos")
p("The FIR tables are what the design scripts compute",
  "Each number of the 15 FIR tables made by mkfir.sh is the coefficient which us_sinc computes (sinc times the ultraspherical window with the attenuation passed by the script, every second value) in exact arithmetic, within 2e-16; every table but the linear one comes from a call in the script.",
  "all coefficients of all 15 tables, every window that meets the specification of ultrwin", "the scripts are not run by any test; the claim is about real arithmetic, the window has no closed form.",
  "filter-design/us_sinc.m:us_sinc", "filter-design/mkfir.sh:mkfir", CC+":create_impl")
p("Constants are converted as if rounded once",
  "The float coefficients of FIR filters (literal to double, times 2.0 or 1.0 in double, to float) and of IIR filters (literal to double, to float) are the floats nearest to the exact decimal products: the double rounding never shows.",
  "all coefficients of all 16 FIR and 15 IIR tables, both scalings", "double rounding differs from single rounding by one float ulp at rare points; a test would have to know the exact product.",
  HH+":create_impl_with_coeffs", H+"Upsampler2xFpuTpl.hpp:set_coefs")
p("delay() in double",
  "delay(), computed in double, differs from the delay defined by the tables by at most 1e-14, and not at all for FIR filters.",
  "every configuration, every session", "the tests compare the delay with measured signals, to a few digits.",
  HH+":Resampler2::delay", CC+":IIRDownsampler2", CC+":IIRUpsampler2")
p("Every designed filter is stable",
  "compute_coefs_spec_order_tbw and compute_coefs fail no assertion, have no undefined behaviour, write exactly the coefficients, and every coefficient lies strictly between 0 and 1, so that all poles of the filter are inside the unit circle.",
  "every transition bandwidth in (0, 1/2), every number of coefficients (up to 2^25) or attenuation (1 dB to 10^7 dB)", "real parameters; the argument of a square root is positive only by an identity between theta functions, which the truncated series and the literal for pi satisfy only approximately.",
  H+"PolyphaseIir2Designer.cpp:compute_coef", H+"PolyphaseIir2Designer.cpp:compute_coefs_spec_order_tbw", H+"PolyphaseIir2Designer.cpp:compute_coefs")
p("Delay of IIR resamplers across the band",
  "The group delay of an IIR resampler rises with the frequency; at every frequency up to 1 kHz (10 kHz, 20 kHz at a lower rate of 44.1 kHz) its difference from delay() lies between two tabulated numbers of samples, the differences at 0 and at the end of the band (to a millionth of a sample).",
  "every IIR configuration, exact coefficients or rounded to float, every frequency", "all frequencies; the group delay is a derivative.",
  CC+":IIRUpsampler2", CC+":IIRDownsampler2", HH+":Resampler2::delay")
p("Exact silence without subnormal numbers",
  "If subnormal results are flushed to zero (FTZ on x86, FZ on ARM), then after the input has become zero the output of an IIR resampler becomes exactly zero within a fixed time, less than 0.1 s at 44.1 kHz.",
  "every IIR configuration, every session with inputs up to 2^36, every position where the silence begins", "all states of a filter with infinite memory.",
  H+"StageProcFpu.hpp:StageProcFpu::process_sample_pos", H+"StageProcSseV2.hpp:StageProcSseV2::process_sample_pos", CC+":IIRUpsampler2", CC+":IIRDownsampler2")
p("The accuracy thresholds of the tests hold at every frequency",
  "The thresholds of the accuracy tests for upsampling and downsampling by 2 with FIR filters (testresampler.cc, check_accuracy_full) hold for every sinusoid up to 18 kHz (9 kHz), not only for the frequencies and the phase that the tests try.",
  "every precision from 8 to 24 bits, every frequency and phase, every session", "the tests try 360 frequencies, one phase and one block structure; others exceed the threshold.",
  "tests/testresampler.cc:check_accuracy_full", CC+":Upsampler2", CC+":Downsampler2", CC+":create_impl")
p("Contracted multiplications and additions do no harm",
  "If the compiler contracts any of the multiplications with additions to fused operations (one rounding), the outputs of FIR resamplers still keep all bounds that hold without contraction: rounding error, no overflow, pass band and stop band; programs compiled differently differ by at most twice the rounding error.",
  "every FIR configuration, every session, every choice of contractions (it may differ from place to place and from sample to sample)", "tests run one compiler with one set of options on one machine.",
  CC+":fir_process_one_sample", CC+":fir_process_4samples_sse", CC+":Upsampler2", CC+":Downsampler2")
p("Contraction does no harm to the IIR resamplers either",
  "If the compiler contracts any of the multiplications with additions or subtractions to fused operations (one rounding), every output sample of an IIR resampler is still finite, bounded by the peak gain of C67 and within the bound of C68 of what exact arithmetic gives, whatever the length of the session; for SSE with odd numbers of coefficients the errors still grow at most linearly.",
  "every IIR configuration, every session with inputs between 2^-99 and 2^100, every choice of contractions (it may differ from place to place and from sample to sample)", "errors are fed back for ever; tests run one compiler with one set of options on one machine.",
  H+"StageProcFpu.hpp:StageProcFpu::process_sample_pos", H+"StageProcSseV2.hpp:StageProcSseV2::process_sample_pos", H+"Downsampler2xFpuTpl.hpp:process_sample", H+"Downsampler2xSse.hpp:process_sample")
p("Frequency response of IIR resamplers as computed",
  "Fed with binary32 samples that are near sinusoids from some sample on, an IIR resampler computes samples that are near the sinusoids with the amplitude and phase response of the filter applied: the difference is at most the attenuation of the precision (stop band or mirror images), a transient that decays geometrically, the peak gain times the error of the input and the rounding error of C68.",
  "every IIR configuration, every session, all sums of sinusoids, every input error, contracted multiplications and additions or not", "the tests try single sinusoids and one program; recursive filters feed rounding errors back for ever.",
  H+"StageProcFpu.hpp:StageProcFpu::process_sample_pos", H+"StageProcSseV2.hpp:StageProcSseV2::process_sample_pos", CC+":IIRUpsampler2", CC+":IIRDownsampler2")
p("Processing in place",
  "process_block with output == input gives the same output samples as with a copy of the input, changes nothing else, and leaves an object that no later operation can tell from the one obtained with the copy.",
  "every configuration, every state reached by a session, every block of samples", "no test calls process_block with overlapping buffers; whether samples are overwritten before they are read depends on ratio, filter, vector code and number of samples.",
  HH+":Resampler2::process_block", CC+":Upsampler2::process_block", CC+":Downsampler2::process_block", CC+":Downsampler2::process_4samples_aligned")
p("Amplitude responses, images and round trips",
  "A FIR downsampler multiplies a sinusoid of any frequency by a real number that depends on the frequency only and delays it by exactly delay(): almost 1 in the pass band, almost 0 in the stop band. A FIR upsampler multiplies a sinusoid in the pass band by a real number near 1, delays it by exactly delay() and adds images with small amplitudes at the frequencies (w + 2 pi j) / ratio. Oversampling (up, then down) has the error of the two amplitudes plus stop band times images, subsampling (down, then up) that of both resamplers.",
  "every FIR configuration (two for the round trips, same ratio, any precisions), every session, every frequency and phase, every sum of sinusoids, every input error; in exact arithmetic and in binary32", "all frequencies; tests see sums of all effects at a few of them.",
  CC+":Upsampler2", CC+":Downsampler2", CC+":create_impl", HH+":Resampler2::delay")
p("The thresholds for oversampling and subsampling hold at every frequency",
  "The thresholds of the accuracy tests for oversampling with 8 and 16 bits and for subsampling with 16 bits (testresampler.cc, check_accuracy_full) hold for every sinusoid up to 18 kHz (9 kHz), not only for the frequencies and the phase that the tests try.",
  "every frequency and phase, every pair of sessions of which the second is fed what the first produced", "the tests try 360 frequencies, one phase and one block structure.",
  "tests/testresampler.cc:check_accuracy_full", CC+":Upsampler2", CC+":Downsampler2", CC+":create_impl")
p("The error bound of testmultidelay",
  "With FIR filters, 16, 20 or 24 bits and ratios 2, 4 and 8, a sinusoid fed from the first sample on comes out delayed by delay() with an error of at most 0.00005, at every position i with i - delay > delay: upsampling and oversampling up to 2 kHz (at 44.1 kHz), downsampling in the whole pass band. For oversampling the delay is ups.delay() / ratio + downs.delay().",
  "every frequency and phase, every session (for oversampling: every pair of sessions of which the second is fed what the first produced), every position", "the test tries one frequency, one phase and one block, prints a one-sided error and the bound, and compares them nowhere.",
  "tests/testmultidelay.cc:Test::run", CC+":Upsampler2", CC+":Downsampler2", CC+":create_impl", HH+":Resampler2::delay")
p("Input and output may be parts of one array",
  "process_block with input and output pointing into one array, at parts that do not overlap (in either order, next to each other or not), does what it does with separate arrays: same output samples, same state of the object, and the rest of the array, the input included, is unchanged.",
  "every configuration, every state reached by a session, every block of samples, all positions of the two parts", "the compiler may keep samples in registers and the vector code reads and writes four samples at a time; tests use separate arrays.",
  HH+":Resampler2::process_block", CC+":Upsampler2::process_block", CC+":Downsampler2::process_block", H+"Upsampler2xFpuTpl.hpp:process_block", H+"Downsampler2xSse.hpp:process_block")
p("Inverting the polarity is exact",
  "Two sessions of the same shape, one fed the negated samples of the other, produce negated samples, exact to the last bit; infinities and NaNs appear at the same places.",
  "every configuration (FIR and IIR, SSE or not), every session, all samples including subnormal numbers, infinities and NaNs, with subnormal numbers on or off (x86, ARM)", "tests compare outputs of one polarity with tolerances; rounding must be symmetric in every operation of every code path.",
  CC+":fir_process_one_sample", CC+":fir_process_4samples_sse", H+"StageProcFpu.hpp:StageProcFpu::process_sample_pos", H+"StageProcSseV2.hpp:StageProcSseV2::process_sample_pos")
p("Changing the level by a power of two is exact",
  "Two sessions of the same shape, one fed the samples of the other times 2^k, produce samples that differ by the factor 2^k exactly, unless a result overflows.",
  "every configuration, every session, every k, all samples", "tests use one level; a product below the smallest number of the format breaks it, whether one occurs depends on taps, ratio and level.",
  CC+":fir_process_one_sample", CC+":fir_process_4samples_sse", CC+":create_impl", H+"StageProcFpu.hpp:StageProcFpu::process_sample_pos")
p("Resamplers release exactly what they allocate",
  "A program that constructs, moves, assigns, uses and destroys Resampler2 objects (each object only while it exists, used only while it holds a resampler) never frees a block twice, never uses freed memory and never leaks: at every point the allocated blocks are exactly those of the resamplers held, and none are left when all objects are destroyed. A constructor that fails because operator new throws leaves nothing behind. A resampler that is moved goes on as if it had not been.",
  "every program of such statements on any number of objects, every pattern of failures of operator new (malloc succeeds), every configuration", "leaks on exception paths and moves between objects are never exercised by the tests, and there are infinitely many programs.",
  HH+":AlignedArray::~AlignedArray", HH+":Resampler2::impl_x2", HH+":Resampler2::create_impl_with_coeffs", CC+":Resampler2::Resampler2", CC+":Resampler2::init_stage", CC+":Upsampler2::Upsampler2", CC+":Downsampler2::Downsampler2", CC+":fir_compute_sse_taps")
p("Overshoot is bounded for all monotone signals",
  "The output of a FIR resampler for a signal that rises from a to b (or falls from b to a), however it does so, goes below a and above b by at most a tabulated part of b - a: 13.5 to 13.9 per cent for upsampling, 6.8 to 8.8 per cent for downsampling, nothing (but rounding of the coefficients) for linear interpolation. The numbers are sharp: there are steps that get within 0.2 per cent of them.",
  "every FIR configuration, every session, every monotone signal of any length, exact coefficients or rounded to float", "there are infinitely many monotone signals; tests feed sinusoids and compare with a tolerance.",
  CC+":Upsampler2", CC+":Downsampler2", CC+":create_impl")
p("The command line of the test program",
  "Options::parse of the test program understands exactly the command lines of a small grammar: flags, options with a value (next argument or after '='), other arguments. It sets the options accordingly, keeps the other arguments in order, and reports their number. No command line has two meanings. It never reads or writes outside of argv, never passes a null pointer to strcmp, and always ends; the only undefined behaviour is atoi of a number that is not an int. Block sizes are even and at least 2, precisions are enumerators. A test is started exactly if one argument is left over and names a command.",
  "every command line (any number of arguments, any strings), every initial value of the options", "the strings are arbitrary, and tests of a test program do not exist.",
  "tests/testresampler.cc:check_arg", "tests/testresampler.cc:Options::parse", "tests/testresampler.cc:main")
p("The test program is free of undefined behaviour for every block size it accepts",
  "For every block size accepted on the command line, the performance test and the accuracy test access only the arrays they allocated, and no int expression overflows.",
  "every block size, type of test, precision, signal, sequence of values returned by rand(), number of iterations and test frequencies, state of the stack", "the program is run with one block size and one sequence of random numbers.",
  "tests/testresampler.cc:perform_test")
p("The accuracy test compares every sample with the response to its own test signal",
  "For each test frequency every output sample with a number greater than 4 * order is compared exactly once and in order, and (in exact arithmetic) its value is that of the response of fresh resamplers to the test signal: it depends neither on the random block sizes and alignments, nor on the frequencies tested before, though the resamplers are not reset. If rand() keeps selecting blocks, the test ends.",
  "every block size below 2^30, type of test, precision, list of signals, sequence of values returned by rand(), state of the stack", "this is what makes the test a test; that no sample is contaminated by the signal before depends on the memory of two filters in a row.",
  "tests/testresampler.cc:perform_test", HH+":Resampler2::order", HH+":Resampler2::process_block")
p("A passed accuracy test bounds the error",
  "If the maximum error reported by the accuracy test is at most t, then every compared sample differs from the expected value by at most t.",
  "every list of compared samples, every expected signal, every t", "a test of the test; the error is a signed difference in the source.",
  "tests/testresampler.cc:perform_test")
p("The impulse test prints the whole impulse response",
  "The impulse test prints the first samples of the impulse response (in exact arithmetic), and all samples that follow are zero.",
  "every type of test, every precision, state of the stack", "the output is not compared with anything; the source says that 150 samples are enough for all possible tests.",
  "tests/testresampler.cc:perform_test", CC+":Upsampler2", CC+":Downsampler2")
p("testresampler check passes",
  "All accuracy tests of `testresampler check` (upsampling, downsampling, oversampling, subsampling; all precisions and test frequencies; blocks of random size and alignment; resamplers not reset between the frequencies; accumulated and wrapped phases; thresholds in dB) pass if computed exactly.",
  "every build (with SSE or not), allocator, state of the stack, sequence of values returned by rand(), number of iterations", "one run of the test sees one build and one sequence of random numbers; that none of them can fail is a property of the filters.",
  "tests/testresampler.cc:perform_test", "tests/testresampler.cc:run_accuracy", "tests/testresampler.cc:check_accuracy_full", CC+":Upsampler2", CC+":Downsampler2", HH+":Resampler2::delay")
p("The smaller test programs are free of undefined behaviour",
  "testaddr, testsimple, testmultiperf, testmultidelay, testdownmulti, testdistort and testsawquality access only their own arrays, whatever arguments they accept.",
  "every build (with SSE or not), allocator, address of the arrays, state of the stack, signal, ratio, number of bits, type of filter, number of iterations", "the programs are run with a few arguments, and a read of two floats behind an array goes unnoticed.",
  "tests/testaddr.cc:main", "tests/testsimple.cc:main", "tests/testmultiperf.cc:main", "tests/testmultidelay.cc:Test::run", "tests/testdownmulti.cc:check_amps", "tests/testdistort.cc:main", "tests/testsawquality.cc:Saturation")
p("Upsampling, a function of every sample, downsampling",
  "Processing a signal block by block (upsampling, applying a function to every sample, downsampling, with one pair of resamplers) accesses only the arrays of the caller, changes only the samples asked for, and yields what the upsampling filters, the function and the downsampling filters yield for the whole signal: the sizes of the blocks have no influence (bitwise if FIR filters are not vectorised, and always in exact arithmetic).",
  "every pair of configurations with the same ratio except the vectorised IIR downsampler (C27), every function, every signal, every sequence of block sizes, addresses, states of the stack", "this is what the library is for, but the tests process one block and look at a spectrum; the function is arbitrary, so linearity is of no help.",
  "tests/testsawquality.cc:Saturation::process", "tests/testdistort.cc:main", HH+":Resampler2::process_block")
p("testmultidelay stays within the bound it prints",
  "All tests run by testmultidelay without arguments (up, down, over; ratios 2, 4, 8; 16, 20, 24 bits) return an error of at most 0.00005 if computed exactly; so does each sample compared, in absolute value. More than half of the samples are compared.",
  "every build (with SSE or not), allocator, address of the arrays, state of the stack", "the program prints the error and the bound but does not compare them, and the error it prints is one-sided.",
  "tests/testmultidelay.cc:Test::run", "tests/testmultidelay.cc:main", HH+":Resampler2::delay", CC+":Upsampler2", CC+":Downsampler2")
p("Unsupported ratios do no harm",
  "A resampler constructed with a ratio other than 1, 2, 4, 8 (the constructor prints a message and continues) never causes undefined behaviour, and process_block writes either all samples of the documented number (n * ratio or n / ratio) or none.",
  "every ratio, mode, filter, precision, state, block", "the tests use supported ratios only.",
  CC+":Resampler2::Resampler2", HH+":Resampler2::process_block", HH+":Resampler2::delay", HH+":Resampler2::reset")
p("The exact contract of process_block",
  "process_block is free of undefined behaviour if and only if the input buffer holds n samples, the output buffer has room for n * ratio (n / ratio) samples and, for vectorised IIR downsampling, two more samples can be read behind the input. So no implementation detail lets smaller buffers work by accident, and every smaller buffer is overrun.",
  "every configuration, every state that can occur, all buffers, addresses and block sizes admitted by the documentation", "a test can only show that some buffer sizes work.",
  HH+":Resampler2::process_block", CC+":Resampler2::Upsampler2::process_block", CC+":Resampler2::Downsampler2::process_block")
p("The example of the documentation",
  "An object of the class Saturation computes, after reset(), what a new object computes, bit for bit. With exact arithmetic: its output is bounded by 2.514 however loud the input is, it depends continuously on the input (with an explicit constant), and a constant c comes out as tanh (3 c) 128 samples later, up to 0.0004 + 0.0072 |c|.",
  "all sequences of process and reset, all block sizes and signals; the bounds: every FIR configuration and every bounded or Lipschitz-continuous function in place of tanh", "the class is printed in a comment and never compiled; only one frequency is plotted by testsawquality.",
  HH+":Saturation", "tests/testsawquality.cc:Saturation")
p("No signal gains power",
  "Whatever the signal, the energy (sum of squares) of everything a FIR upsampler has produced is at most ratio times the energy of everything it was given, and for a FIR downsampler at most the energy of the input divided by ratio, up to a factor 1 + e with e between 6e-8 and 1.4e-2 depending on ratio and precision. With a function g, |g x| <= L |x|, between up- and downsampling the energy grows at most by L^2 (up to both factors).",
  "every FIR configuration, every session, all signals (not only sinusoids), at any time", "tests measure single frequencies; the statement about all signals needs Parseval's identity.",
  CC+":Upsampler2", CC+":Downsampler2", HH+":Resampler2::process_block")
p("Upsampling loses nothing",
  "IIR upsampling keeps distances: of any two signals of the same length, each followed by silence, the results differ by ratio times the energy by which the signals differ, up to an arbitrarily small amount if the silence is long enough; in particular the energy of the result tends to ratio times the energy of the signal. The output determines the input: two sessions that have produced the same samples were given the same samples; for FIR filters, but for the samples still on their way (delay()), and this holds for every rounding.",
  "every upsampling configuration, every session, all signals", "a test compares a few signals; that no two signals are mapped to the same result is a statement about all pairs.",
  CC+":Upsampler2", HH+":Resampler2::process_block", "include/pandaresampler/hiir/Upsampler2xFpuTpl.hpp:process_block", "include/pandaresampler/hiir/Upsampler2xSse.hpp:process_block")
p("Oversampling by 2 with IIR filters is exactly an allpass filter",
  "IIR upsampling by 2 followed by IIR downsampling by 2 with the same precision computes exactly a chain of first order allpass sections at the lower rate, one for each coefficient: images and aliasing cancel for every signal, not only in the pass band. So the round trip keeps distances and energy (in the limit, after enough silence), and determines its input. For all ratios and precisions, with a function g, |g x| <= L |x|, in between, the energy of the output is at most L^2 times the energy of the input, at any time.",
  "every pair of IIR configurations (with or without SSE), every session, all signals", "the cancellation is an identity between filters; a test sees residuals of rounding at a few frequencies, and none in the transition band where nobody measures.",
  H+"Upsampler2xFpuTpl.hpp:process_block", H+"Downsampler2xFpuTpl.hpp:process_block", H+"Upsampler2xSse.hpp:process_block", H+"Downsampler2xSse.hpp:process_block", HH+":Resampler2::process_block")
p("Splitting into two bands with hiir loses nothing",
  "A new or cleared hiir downsampler with coefficients between -1 and 1, used as a band splitter: the energies of the two bands add up to at most half the energy of the input, at any time; after a signal and enough silence they add up to half the energy of the signal, up to an arbitrarily small rest. If no coefficient is 0, the two bands determine the input. Changing the sign of every other sample of the input exchanges the two bands, except for the sign: the response of the high band is the mirrored response of the low band.",
  "every number of coefficients, all coefficients, FPU and SSE version, all signals, every sequence of calls", "energy conservation is a limit statement over all signals, and no test calls process_block_split at all.",
  H+"Downsampler2xFpuTpl.hpp:process_block_split", H+"Downsampler2xSse.hpp:process_block_split", H+"StageProcFpu.hpp:process_sample_pos")
p("Downsampling loses exactly what it has to",
  "Downsampling can produce every signal: for every sequence there is an input for which exactly this sequence is produced. By 2, half of the information is lost and no more: the second sample of each pair can be chosen arbitrarily, and then there is exactly one way to choose the first samples that leads to a given output.",
  "every valid downsampling configuration (second part: ratio 2), every output, every session that feeds the input", "surjectivity is a statement about all outputs; a test can only look at the outputs of the inputs it has.",
  CC+":Downsampler2::process_block", H+"Downsampler2xFpuTpl.hpp:process_block", H+"Downsampler2xSse.hpp:process_block", HH+":Resampler2::process_block")
p("FIR resamplers treat both directions of time alike",
  "Linear phase for all signals: if a signal is reversed, what a FIR resampler makes of it (after enough silence) is reversed, too, sample by sample. The axis is delay(): the last sample that is not silent is the last sample of the signal, converted to the new rate, plus 2 * delay(). So every component of a signal is delayed by delay() exactly, and transients are not smeared to one side.",
  "every valid FIR configuration, every signal (downsampling: lengths for which the end of the output is a whole number), every pair of sessions", "tests measure delays of sine waves at a few frequencies; this is about the shape of every signal.",
  CC+":Upsampler2::process_block", CC+":Downsampler2::process_block", CC+":create_impl", HH+":Resampler2::delay")
p("IIR resamplers keep the integral of a signal",
  "The sum of all samples an IIR resampler produces for a signal followed by silence tends to ratio times (UP) or 1/ratio times (DOWN) the sum of the signal: measured in time, the area under the signal stays the same. No offset is added or lost, for any signal, at any precision, whatever the rounding of the coefficients.",
  "every valid IIR configuration, every finite signal, every tolerance greater than 0, every way to split the input in blocks", "a test can only sum up the output for some signals and some amount of silence; the claim is about the limit for every signal.",
  CC+":IIRUpsampler2", CC+":IIRDownsampler2", CC+":create_impl_iir")
p("FIR resamplers keep the integral of a signal, to the accuracy of constant signals in the other direction",
  "The sum of all samples a FIR resampler produces for a signal followed by silence is ratio times (UP) or 1/ratio times (DOWN) the sum of the signal, with an error of at most a tabulated fraction of the sum of the absolute values. The fraction for upsampling is the one that bounds the DC error of downsampling (C41) and vice versa, as the filters are transposes of each other.",
  "every valid FIR configuration, every finite signal, every way to split the input in blocks", "a test can only sum up the output for some signals.",
  CC+":Upsampler2::process_block", CC+":Downsampler2::process_block", CC+":create_impl")
p("Upsampling and downsampling are transposes of each other",
  "If an upsampler makes P of x, and the downsampler of the same ratio, precision and kind of filter makes Q of y, then the convolution of P and y at the higher rate is ratio times the convolution of x and Q at the lower rate; for IIR filters at the end, for FIR filters at the beginning of every group of ratio samples. So both directions use the same filter, with the same scaling and the same alignment of the phases.",
  "every pair of valid configurations (SSE or not, independently), every pair of signals, every way to split them in blocks", "a relation between two programs (Upsampler2 and Downsampler2) for all pairs of signals; tests only look at one direction, or a round trip of sine waves.",
  CC+":Upsampler2::process_block", CC+":Downsampler2::process_block", CC+":IIRUpsampler2", CC+":IIRDownsampler2", CC+":create_impl", CC+":create_impl_iir")
p("Filtering before or after resampling",
  "Resampling commutes with every convolution: a signal convolved with a kernel is upsampled to the upsampled signal convolved with the kernel whose samples are ratio apart; and vice versa for downsampling. (Noble identities: a filter can be moved to the side with the lower rate.)",
  "every valid configuration, every kernel (finite or not), every signal, every way to split it in blocks", "for all kernels and all signals.",
  CC+":Upsampler2::process_block", CC+":Downsampler2::process_block", CC+":IIRUpsampler2", CC+":IIRDownsampler2")
p("round_int rounds to the nearest integer",
  "round_int(x) is the integer nearest to x, and the larger one of two that are equally near; the conversion is undefined exactly if this integer is not an int. (False for exactly one double, 1/2 - 2^-54, where the result is 1.)",
  "every finite double", "2^64 inputs; the only exception is a single double next to 0.5.", H+"fnc.hpp:round_int")
p("Spectra in the test programs show amplitudes",
  "The spectra printed by testresampler (error spectrum) and testsawquality show a sine wave with a whole number k of periods in the window as a line at k with exactly its amplitude, lines of 25/42 and 2/21 of it at distance 1 and 2, and nothing elsewhere. The window is even, between 0 and 1, and 0 at the ends.",
  "every even size of the transform, every amplitude, phase and k, every line with k + line at least 3 away from 0 and from the size of the transform", "a statement about real functions, for all phases and amplitudes.",
  "tests/testresampler.cc:window_blackman", "tests/testresampler.cc:perform_test", "tests/testsawquality.cc:main")
p("testdownmulti looks at the whole signal",
  "The window in check_amps covers all FFT_SIZE * ds samples of the test signal. (False: it covers the first FFT_SIZE samples, so for ds > 1 all other samples of the test signal are 0. The factor normalize fits the window that there is.)",
  "every ratio and frequency", "the program prints plausible values in both cases.", "tests/testdownmulti.cc:check_amps")
p("testsawquality tests a band limited sawtooth",
  "The test signal is the sum of sin(2 pi q f t) / q over all harmonics q f below 24000 Hz. (False for frequencies that are not positive, for instance if the argument is not a number, and below 24000 / (2^31 - 1): the int that counts the harmonics overflows.)",
  "every frequency, every sample", "the loop has no bound that depends on anything but the argument.", "tests/testsawquality.cc:main")
p("testdownmulti tests all multiples of 100 Hz",
  "The frequencies testdownmulti calls check_amps with are exactly the multiples of 100 Hz below 22050 * ds, in increasing order, although the loop variable is a float.",
  "every ratio up to 760 (the resampler supports up to 8)", "rounding errors of a float loop counter only show after many iterations.", "tests/testdownmulti.cc:main")
p("float and double operations are those of IEEE 754",
  "The float and double operations that the theorems about rounding, overflow and underflow are about give the representable number nearest to the exact result, the one with an even significand if there are two, and no number exactly if this is 2^128 or 2^1024 or more in absolute value. There is exactly one such result. With flushing of subnormal numbers, results below 2^-126 become 0, after rounding to 24 bits (x86) or before (ARM).",
  "every exact result", "about the model of the arithmetic all other rounding properties rest on.",
  CC+":Upsampler2", CC+":Downsampler2", H+"StageProcFpu.h")
p("Switching subnormal numbers off does not change the output",
  "Whether the processor is set to flush subnormal results to zero, as audio programs do (FTZ on x86, FZ on ARM), makes no difference to the output samples. True for every output sample that is computed without underflow and overflow on the way.",
  "every configuration, every session, every output sample", "tests run in one mode of the processor only.",
  CC+":Upsampler2", CC+":Downsampler2", H+"StageProcFpu.hpp", H+"StageProcSseV2.hpp")
with open("/verif/properties.jsonl","w") as f:
    for o in P: f.write(json.dumps(o)+"\n")
print(len(P))
