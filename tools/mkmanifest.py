#!/usr/bin/env python3
"""Writes MANIFEST.json: which theorems belong to which property."""
import json, os

P, Q, N = "proved", "partial", "not_applicable"
claims = []
def c(prop, status, theorems, note=""):
    claims.append({"property": prop, "status": status, "theorems": ["Panda." + t for t in theorems], "note": note})

c("C01", P, ["C01_fir_up2_memory_safe"], "every UB outcome of the model is excluded; any history, address, precision")
c("C02", P, ["C02_fir_down2_memory_safe"], "as C01 for DOWN")
c("C03", P, ["C03_fir_cascade_memory_safe"], "ratios 4 and 8, internal temporaries included")
c("C04", P, ["C04_output_frame", "C04_contents_irrelevant"], "FIR and IIR; independence of stack and buffer contents is bit-exact")
c("C05", P, ["C05_fir_up2"], "exact arithmetic over any commutative ring, arbitrary (rounded) coefficients")
c("C06", P, ["C06_fir_down2"], "as C05")
c("C07", P, ["C07_cascade"], "no laws of arithmetic; FIR and IIR")
c("C08", P, ["C08_block_size_independent"], "exact arithmetic; C09 is the bit-exact version")
c("C09", P, ["C09_block_size_independent"], "bit-exact; also across allocators and builds, and for IIR with SSE")
c("C10", P, ["C10_sse_eq_fpu"], "exact arithmetic; all ratios")
c("C11", P, ["C11_rounding_up2", "C11_rounding_down2", "C11_sse_up2", "C11_sse_down2", "C11_binary32", "C11_binary32_sse"],
  "any rounding for factor 2; binary32 with explicit numbers for all ratios")
c("C12", P, ["C12_samples_at_delay"], "bit-exact, SSE or not")
c("C13", P, ["C13_affine_down"], "exact arithmetic; any conversion of the coefficients")
c("C14", Q, ["C14_delay_nonneg_partial", "C14_false_iir_granularity"],
  "non-negativity for all configurations, granularity for FIR; the documented granularity is false for IIR (negation proved)")
c("C15", P, ["C15_reset_eq_new", "C15_history_forgotten"], "bit-exact, no laws of arithmetic")
c("C16", P, ["C16_queries_constant"], "for any object and any arguments, legal or not")
c("C17", P, ["C17_window_up", "C17_window_down", "C17_memory_bound", "C17_forgets"], "exact arithmetic")
c("C18", P, ["C18_linear"], "exact arithmetic; FIR and IIR")
c("C19", P, ["C19_time_invariant_up", "C19_time_invariant_down"], "exact arithmetic; FIR and IIR")
c("C20", P, ["C20_causal", "C20_streaming", "C20_false_sse_early"], "sample-wise for everything but vectorised FIR (C20_false_sse_early: false there, as the statement says), block-wise for everything")
c("C21", P, ["C21_gain_bound"], "exact arithmetic, coefficients accurate to 2^-24")
c("C22", P, ["C22_no_overflow"], "all ratios")
c("C23", P, ["C23_energy"], "exact arithmetic, coefficients accurate to 2^-24; at every time, all ratios")
c("C24", Q, ["C24_decays", "C24_silent_float_partial", "C24_false_sse_rings", "C24_false_sse_rings_down", "C24_false_sse_rings_up"],
  "exact arithmetic: proved; binary32: proved (down to 2^-57 after a time independent of the session) except with SSE and an odd number of coefficients, where it rings forever (negation proved for 8 bits with every mode and ratio, for downsampling with 12 and 16 bits, and by 2 with 24 bits; not for the other odd ones)")
c("C25", P, ["C25_iir_sse_eq_fpu_even", "C25_iir_sse_eq_fpu_exact", "C25_false_odd"],
  "even stages bit for bit, all stages exactly; bit-identity is false for odd stages (proved)")
c("C26", P, ["C26_iir_up", "C26_iir_down", "C26_iir_down_sse"], "order of operations included; odd coefficient counts with SSE have an extra section with coefficient 1")
c("C27", Q, ["C27_iir_memory_safe_partial", "C27_false_sse_down_reads_past_end", "C27_false_zero_samples", "C27_false_sse_down_iff"],
  "false as stated: SSE down reads two floats past the end, FPU code processes one sample when n = 0 (negations proved); safe otherwise")
c("C28", Q, ["C28_zero_samples_noop_partial", "C28_false_zero_processed_as_one", "C28_false_zero_processed_as_two"],
  "false for factor 2 IIR FPU code (negations proved); holds for FIR and for ratios 4 and 8")
c("C29", Q, ["C29_odd_block_rejected_partial", "C29_iir_odd_block_drops_sample", "C29_false_desync"],
  "odd blocks rejected by factor 2 FIR; ratio 4 desynchronises (negation proved)")
c("C30", Q, ["C30_large_blocks_partial", "C30_false_large_blocks"], "false for FIR UP by 2 with n >= 2^31 (negation proved)")
c("C31", Q, ["C31_ratio1_identity_partial", "C31_false_queries"], "identity proved; order()/sse_enabled() dereference null (negation proved)")
c("C32", P, ["C32_constructible", "C32_false_iir_linear"], "for all supported combinations; IIR with PREC_LINEAR is not usable (negation proved)")
c("C33", P, ["C33_find_precision", "C33_find_precision_monotone", "C33_find_precision_fixed"])
c("C34", P, ["C34_precision_name", "C34_name_tells"])
c("C35", P, ["C35_order", "C35_order_monotone", "C35_order_check_passes", "C35_create_complete"])
c("C36", P, ["C36_sse_enabled", "C36_neon_iir_is_scalar"])
c("C37", Q, ["C37_construct_partial", "C37_ofVector_partial", "C37_read", "C37_write", "C37_destroy", "C37_lifetime_partial", "C37_false_overflow", "C37_false_malloc_fails"],
  "proved whenever malloc succeeds and the size fits into size_t; false otherwise (negations proved)")
c("C38", Q, ["C38_false_copy"], "false for every array of any length (negation proved)")
c("C39", P, ["C39_passband_up", "C39_passband_up_binary32"],
  "all ratios, sums of sinusoids, disturbed by errors up to epsilon; real arithmetic with constants accurate to 2^-24, and binary32 arithmetic")
c("C40", P, ["C40_pass_stop_down", "C40_pass_stop_down_binary32"],
  "all ratios; stop band = frequencies that alias into the pass band; real arithmetic with constants accurate to 2^-24, and binary32 arithmetic")
c("C41", P, ["C41_dc_gain_fir", "C41_dc_gain_iir"], "FIR: explicit error; IIR: limit exactly 1 (exact arithmetic)")
c("C42", P, ["C42_split_fpu", "C42_split_sse", "C42_bands_fpu", "C42_bands_sse", "C42_low_fpu_float", "C42_false_sse_binary32"],
  "bit-exact formulas for any sample type; bands equal in exact arithmetic, and in floating point for the FPU version. In binary32 the SSE low band can differ from process_block (overflow), shown by a witness")
c("C43", Q, ["C43_up_fpu", "C43_up_sse", "C43_down_fpu", "C43_down_sse", "C43_lanes_irrelevant", "C43_split_fpu_partial", "C43_split_sse_partial", "C43_false_split"],
  "true for process_block; for process_block_split the asserts are too weak (negation proved), true if the two outputs are disjoint")
c("C50", Q, ["C50_stop_band", "C50_false_144dB"],
  "whole resamplers, all ratios; exact coefficients: the dB number of the precision; coefficients of type float: 143 dB instead of 144 dB (that 144 dB are missed is proved), all other precisions as promised")
c("C52", P, ["C52_instances_independent", "C52_interleaving_succeeds"])
c("C53", P, ["C53_round_trip"], "all ratios, different precisions of the two resamplers allowed")
c("C56", P, ["C56_response_down"], "real arithmetic, constants exact or rounded to binary32")
c("C57", P, ["C57_response_up"], "real arithmetic, constants exact or rounded to binary32")
c("C58", P, ["C58_amplitude"])
c("C59", P, ["C59_round_trip", "C59_tone"], "different precisions of the two resamplers allowed")
c("C55", P, ["C55_no_frequency_amplified"])
c("C54", P, ["C54_outcome_data_independent"])

c("C44", Q, ["Designer.C44_false", "Designer.C44_positive_partial"], "false for small attenuations (negation proved for every transition bandwidth); true from 1 dB on")
c("C45", P, ["Designer.C45_power", "Designer.C45_negative"])
c("C46", Q, ["Designer.C46_cell", "Designer.C46_additive", "Designer.C46_filter", "Designer.C46_false"],
  "true for coefficients in [0, 1), with the sharper claim that it is the derivative of the phase; false for the documented coefficient 1 (0/0, negation proved)")
c("C47", Q, ["Designer.C47_false", "Designer.C47_codes_partial"], "false (negation proved): a design that does not converge within 1000 steps is reported as OK; what the codes do mean is proved")
c("C48", P, ["Designer.C48_terminates", "Designer.C48_num", "Designer.C48_den", "Designer.C48_nome"], "real arithmetic; integer overflow modelled (it ends the loop, too); result and explicit iteration bound for the values the designer uses")
c("C61", P, ["Designer.C61_sufficient_minimal"], "1 dB to 10^9 dB")
c("C62", Q, ["Designer.C62_false", "Designer.C62_false_dc", "Designer.C62_value_partial"], "false (negation proved); what is returned instead is proved: one period minus the phase delay of the one-sample cell")
c("C63", Q, ["Designer.C63_false", "Designer.C63_total_partial"], "false (negation proved) from half the sample rate on; proved below it, with the range of the coefficients")
c("C49", P, ["C49_constants"], "rational enclosures of the trigonometric values, checked in the kernel")
c("C60", Q, ["C60_delay_up_partial", "C60_delay_down_partial", "C60_false"],
  "false to the printed precision (negation proved: off by more than 0.011 samples for 48 dB); accuracy per precision proved")
c("C64", P, ["C64_sizes"], "real arithmetic, interval certificates checked in the kernel")
c("C65", P, ["C65_coefficients", "C65_mkiir"], "real arithmetic; the whole output of mkiir per table: size, coefficients, delay constant")
c("C51", P, ["C51_self_test_exact", "C51_self_test_safe"], "result in exact arithmetic; memory safety for any arithmetic")
c("C66", Q, ["C66_false_binary32", "C66_small_orders_partial", "C66_tolerance_partial", "C66_rand_partial"],
  "false (negation proved): the tolerance is smaller than possible rounding errors; proved: the orders up to 13 always pass, and with the tolerance 0.00015 all orders would")
c("C67", P, ["C67_peak_gain"], "exact arithmetic; factor per mode, ratio and precision")
c("C68", Q, ["C68_rounding_partial", "C68_linear_partial", "C68_false_sse_drift", "C68_false_sse_drift_down"], "false for SSE with an odd number of coefficients (negation proved for ratio 2 with 8, 12 and 24 bits, up and down: the error grows linearly, up to 0.0989 of full scale); proved without SSE and for even numbers; inputs of magnitude 2^-100 to 2^100. For every IIR configuration the errors grow at most linearly in sessions of up to 2^20 samples (C68_linear_partial). Whether they grow at all with odd stages of ratios 4 and 8 is neither proved nor refuted")
c("C69", Q, ["C69_no_overflow_partial", "C69_linear_partial", "C69_finite", "C69_false_sse_down"], "outputs finite: proved for every IIR configuration (inputs up to 2^36). Bound by the peak gain of C67: proved without SSE and for even numbers of coefficients (inputs of magnitude 2^-100 to 2^100); for SSE with an odd number: proved with an additional term that grows linearly with the length of the session, up to 2^20 samples (C69_linear_partial), and without that term the bound is false downsampling by 2 with 8, 12 or 24 bits (C69_false_sse_down). Upsampling by 2 and odd stages of ratios 4 and 8: neither proved nor refuted")
c("C70", Q, ["C70_fir_silent", "C70_false_subnormals_up", "C70_false_subnormals_down", "C70_false_cascade_up", "C70_false_cascade_down"], "proved for all FIR configurations in binary32. False for IIR of every mode, ratio but 1, and precision: after an impulse the filters stay in a cycle of subnormal numbers for ever")
c("C71", Q, ["C71_fir_recovers", "C71_false_iir"], "proved for all FIR configurations in binary32. False for every IIR configuration but ratio 1: one bad sample and all later output is bad")
c("C72", P, ["C72_fir_tables_designed", "C72_every_table"], "real arithmetic; ultrwin is specified, not modelled (it is not part of the repository)")
c("C73", P, ["C73_fir_taps", "C73_iir_coefs"], "binary64 to binary32, all tables, evaluated in the kernel")
c("C74", P, ["C74_delay_double"], "binary64, every configuration")
c("C75", P, ["Designer.C75_range", "Designer.C75_attenuation", "Designer.C75_poles", "Designer.C75_overflow"], "real arithmetic with the literal PI and the truncated series; int overflow modelled")
c("C76", P, ["C76_rises", "C76_band_up", "C76_band_down", "C76_exact"], "real arithmetic; millionths of a sample; at 20 kHz delay() for ratio 2 is off by 5.7 to 14.1 samples of the higher rate")
c("C77", Q, ["C77_exactly_silent_partial", "C77_times", "C77_false_sse_rings"], "proved without SSE and for even numbers of coefficients, in every format that flushes subnormal results; false for SSE with an odd number of coefficients (negation proved)")
c("C78", Q, ["C78_exact_up", "C78_exact_down", "C78_binary32_up_partial", "C78_binary32_down_partial", "C78_false_up", "C78_false_down"], "exact arithmetic: proved for all precisions; binary32: proved for 8 bits (up), 8 and 12 bits (down), false for 20 bits and for 24 bits without SSE (negation proved), the rest is undecided")
c("C79", P, ["C79_rounding", "C79_two_programs", "C79_passband_up", "C79_pass_stop_down"], "binary32, every choice of contractions")
c("C80", P, ["C80_rounding", "C80_linear", "C80_two_programs"], "binary32, every choice of contractions; C80_rounding without SSE or for even numbers of coefficients, C80_linear for every configuration up to 2^20 samples, as in C68")
c("C81", P, ["C81_down", "C81_up", "C81_down_linear", "C81_up_linear", "C81_down_contracted", "C81_up_contracted"], "binary32; the linear versions hold for every configuration up to 2^20 samples, the others for any length, without SSE or for even numbers of coefficients")
c("C82", Q, ["C82_in_place_exact", "C82_in_place_partial", "C82_iir_up_assert", "C82_false_fir_down_vec", "C82_false_fir_up", "C82_false_iir_up", "C82_false_up4"], "proved for ratio 1, DOWN by 4 and 8, UP by 4 and 8 up to 1024 samples, IIR DOWN, FIR DOWN by 2 without vector code, and short blocks of FIR resamplers with ratio 2; false otherwise (negation proved); with asserts enabled IIR UP by 2 stops in an assert")
c("C83", P, ["C83_response_down", "C83_response_up", "C83_round_trip", "C83_subsample", "C83_round_trip_binary32", "C83_subsample_binary32"], "responses in exact arithmetic, round trips also in binary32")
c("C84", Q, ["C84_over_exact", "C84_sub_exact", "C84_over_binary32_partial"], "exact arithmetic: proved for all thresholds; binary32: proved for oversampling with 8 bits; 16 bits are undecided")
c("C85", Q, ["C85_up", "C85_down", "C85_over", "C85_down_binary32", "C85_up_binary32_partial", "C85_over_binary32_partial"], "exact arithmetic: proved for all modes, ratios and precisions; binary32: proved for downsampling, for upsampling except by 8 with 16 bits, and for oversampling by 2; the other cases are undecided")
c("C86", P, ["C86_disjoint_parts"], "the part that is read includes the two samples behind the input that SSE IIR downsamplers read (C27)")
c("C87", P, ["C87_polarity"], "binary32, and binary32 with FTZ (x86) or FZ (ARM); the sign of zero is not modelled")
c("C88", Q, ["C88_power_of_two_partial", "C88_any_exponent_partial", "C88_any_exponent_binary32", "C88_no_underflow_partial", "C88_false_tiny"], "proved for all configurations in binary32 for the output samples that are computed without underflow and overflow; proved for FIR in binary32 with samples that are multiples of 2^-25 before and after (24 bit audio); false for the smallest samples, FIR and IIR (negation proved)")
c("C89", P, ["C89_safe", "C89_memory", "C89_no_leak", "C89_moves", "C89_moved_ratio_one", "C89_false_use_after_move", "C89_false_malloc"], "the two hypotheses are needed: using an object that was moved from is a null dereference (except for ratio 1), and a failing malloc is a write through a null pointer (both proved)")
c("C90", P, ["C90_overshoot", "C90_overshoot_binary32", "C90_rising", "C90_falling", "C90_sharp"], "exact arithmetic with exact coefficients or coefficients rounded to float, and binary32; thousandths; rising and falling once the filters are filled")
c("C91", P, ["Tool.C91_parse", "Tool.C91_unambiguous", "Tool.C91_help", "Tool.C91_safe", "Tool.C91_ranges", "Tool.C91_command", "Tool.C91_atoi", "Tool.C91_numeral"], "atof is any function from strings to an ordered type with 0 and 1; atoi is modelled")
c("C92", Q, ["Tool.C92_perf_partial", "Tool.C92_accuracy_partial", "Tool.C92_false_perf", "Tool.C92_false_accuracy"], "proved for block sizes below 2^31 (performance) and 2^30 (accuracy); false above (negation proved: for every block size from 2^31 on the performance test writes out of bounds, from 2^30 on an int can overflow in the accuracy test). malloc is assumed to succeed")
c("C93", P, ["Tool.C93_numbers", "Tool.C93_compared", "Tool.C93_terminates", "Tool.C93_spectrum"], "C93_compared in exact arithmetic; C93_terminates for block sizes from 4 on and under a hypothesis on rand()")
c("C94", Q, ["Tool.C94_verdict_partial", "Tool.C94_false_one_sided"], "false (negation proved): the absolute value is missing, samples may be too small by any amount; proved: no sample is too large by more than t")
c("C95", Q, ["Tool.C95_impulse", "Tool.C95_complete_partial", "Tool.C95_false_subsampling"], "what is printed: proved for all. Complete: proved except for subsampling with 20 and 24 bits, where the response has nonzero samples after the 150 printed (negation proved)")
c("C96", P, ["Tool.C96_check_passes", "Tool.C96_frequencies"], "real arithmetic (samples, phases, sin, log); table constants exact or accurate to 2^-24")
c("C97", Q, ["Tool.C97_addr", "Tool.C97_simple", "Tool.C97_multiperf_partial", "Tool.C97_multidelay_partial", "Tool.C97_downmulti_partial",
  "Tool.C97_distort", "Tool.C97_sawquality", "Tool.C97_false_multiperf", "Tool.C97_false_multidelay", "Tool.C97_false_linear"],
  "false as stated (negations proved): testmultiperf and testmultidelay with iir-sse read behind an array, IIR filters with 1 bit dereference null; holds otherwise. testdistort: fir and iir, not zita. testsawquality: an int overflows for frequencies that are not positive (C116)")
c("C98", P, ["Tool.C98_saturation", "Tool.C98_block_size_independent", "Tool.C98_exact"], "")
c("C99", P, ["Tool.C99_multidelay", "Tool.C99_differences"], "real arithmetic (samples, sin); table constants exact or accurate to 2^-24")
c("C100", Q, ["C100_new_partial", "C100_construct_partial", "C100_reset_partial", "C100_like_8_partial", "C100_false_null", "C100_false_overrun", "C100_false_gap"],
  "false as stated (negations proved): ratios 0, 3, 5, 6, 7 dereference null, ratios above 8 write n / 8 (8 * n) samples; holds for construction, delay, reset and blocks of no samples")
c("C101", P, ["C101_exact_contract"], "")
c("C102", P, ["Tool.C102_reset", "Tool.C102_bounded", "Tool.C102_continuous", "Tool.C102_static", "Tool.C102_documented"],
  "the bounds are for exact arithmetic with exact or rounded constants; reset bit for bit")
c("C103", P, ["C103_power", "Tool.C103_saturation"], "exact arithmetic in the reals with exact or rounded constants; for IIR filters see C23")
c("C104", P, ["C104_isometry", "C104_energy", "C104_injective", "C104_fir"], "IIR: exact arithmetic in any (for the limits Archimedean) ordered field, with exact or rounded constants; FIR: every arithmetic")
c("C105", P, ["C105_all_pass", "C105_injective", "C105_isometry", "Tool.C105_saturation"], "exact arithmetic in any (for the limits Archimedean) ordered field, with exact or rounded constants")
c("C106", P, ["C106_energy", "C106_lossless", "C106_injective", "C106_mirror"], "exact arithmetic in any (for the limit Archimedean) ordered field")
c("C107", P, ["C107_onto", "C107_half"], "exact arithmetic in any ordered field, with exact or rounded constants; FIR and IIR")
c("C108", P, ["C108_reversal"], "exact arithmetic over any commutative ring, arbitrary (rounded) constants; FIR")
c("C109", P, ["C109_up", "C109_down"], "exact arithmetic in an Archimedean ordered field; coefficients with a relative error of at most 2^-24")
c("C110", P, ["C110_integral"], "exact arithmetic in an ordered field; coefficients with a relative error of at most 2^-24")
c("C111", P, ["C111_iir", "C111_fir", "C111_constants"], "exact arithmetic over any commutative ring with 1/2; arbitrary constants (IIR), constants for UP twice those for DOWN (FIR), which is proved for the constants rounded to binary32")
c("C112", P, ["C112_up", "C112_down"], "exact arithmetic in any field of characteristic 0, arbitrary (rounded) constants")
c("C113", Q, ["C113_nearest_partial", "C113_overflow", "C113_false"], "binary64, including the rounding of the sum; holds for every double but one, for which the negation is proved")
c("C114", P, ["Tool.C114_error_spectrum", "Tool.C114_saw_spectrum", "Tool.C114_window"], "real numbers for float and double; the transform of FFTW is modelled by the sum it is documented to compute")
c("C115", Q, ["Tool.C115_false", "Tool.C115_normalize_partial", "Tool.C115_covers_partial"], "false of the code; what the window covers and the value of normalize are proved")
c("C116", Q, ["Tool.C116_saw_partial", "Tool.C116_false"], "real numbers for float and double; the two theorems cover all frequencies")
c("C117", P, ["Tool.C117_frequencies"], "binary32, with the rounding of the additions")
c("C118", P, ["C118_float", "C118_double", "C118_operations", "C118_ftz", "C118_fz"], "infinities and NaNs are identified, the sign of zero is not modelled")
c("C119", Q, ["C119_flush_partial", "C119_false_tiny"], "proved for output samples without underflow and overflow on the way; false for samples of at most 2^-92 with every mode, ratio but 1 and precision from 8 bits (negation proved)")

out = os.path.join(os.path.dirname(__file__), "..", "MANIFEST.json")
with open(out, "w") as f:
    json.dump({"claims": claims}, f, indent=1)
    f.write("\n")
