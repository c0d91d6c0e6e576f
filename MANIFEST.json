{
 "claims": [
  {
   "property": "C01",
   "status": "proved",
   "theorems": [
    "Panda.C01_fir_up2_memory_safe"
   ],
   "note": "every UB outcome of the model is excluded; any history, address, precision"
  },
  {
   "property": "C02",
   "status": "proved",
   "theorems": [
    "Panda.C02_fir_down2_memory_safe"
   ],
   "note": "as C01 for DOWN"
  },
  {
   "property": "C03",
   "status": "proved",
   "theorems": [
    "Panda.C03_fir_cascade_memory_safe"
   ],
   "note": "ratios 4 and 8, internal temporaries included"
  },
  {
   "property": "C04",
   "status": "proved",
   "theorems": [
    "Panda.C04_output_frame",
    "Panda.C04_contents_irrelevant"
   ],
   "note": "FIR and IIR; independence of stack and buffer contents is bit-exact"
  },
  {
   "property": "C05",
   "status": "proved",
   "theorems": [
    "Panda.C05_fir_up2"
   ],
   "note": "exact arithmetic over any commutative ring, arbitrary (rounded) coefficients"
  },
  {
   "property": "C06",
   "status": "proved",
   "theorems": [
    "Panda.C06_fir_down2"
   ],
   "note": "as C05"
  },
  {
   "property": "C07",
   "status": "proved",
   "theorems": [
    "Panda.C07_cascade"
   ],
   "note": "no laws of arithmetic; FIR and IIR"
  },
  {
   "property": "C08",
   "status": "proved",
   "theorems": [
    "Panda.C08_block_size_independent"
   ],
   "note": "exact arithmetic; C09 is the bit-exact version"
  },
  {
   "property": "C09",
   "status": "proved",
   "theorems": [
    "Panda.C09_block_size_independent"
   ],
   "note": "bit-exact; also across allocators and builds, and for IIR with SSE"
  },
  {
   "property": "C10",
   "status": "proved",
   "theorems": [
    "Panda.C10_sse_eq_fpu"
   ],
   "note": "exact arithmetic; all ratios"
  },
  {
   "property": "C11",
   "status": "proved",
   "theorems": [
    "Panda.C11_rounding_up2",
    "Panda.C11_rounding_down2",
    "Panda.C11_sse_up2",
    "Panda.C11_sse_down2",
    "Panda.C11_binary32",
    "Panda.C11_binary32_sse"
   ],
   "note": "any rounding for factor 2; binary32 with explicit numbers for all ratios"
  },
  {
   "property": "C12",
   "status": "proved",
   "theorems": [
    "Panda.C12_samples_at_delay"
   ],
   "note": "bit-exact, SSE or not"
  },
  {
   "property": "C13",
   "status": "proved",
   "theorems": [
    "Panda.C13_affine_down"
   ],
   "note": "exact arithmetic; any conversion of the coefficients"
  },
  {
   "property": "C14",
   "status": "partial",
   "theorems": [
    "Panda.C14_delay_nonneg_partial",
    "Panda.C14_false_iir_granularity"
   ],
   "note": "non-negativity for all configurations, granularity for FIR; the documented granularity is false for IIR (negation proved)"
  },
  {
   "property": "C15",
   "status": "proved",
   "theorems": [
    "Panda.C15_reset_eq_new",
    "Panda.C15_history_forgotten"
   ],
   "note": "bit-exact, no laws of arithmetic"
  },
  {
   "property": "C16",
   "status": "proved",
   "theorems": [
    "Panda.C16_queries_constant"
   ],
   "note": "for any object and any arguments, legal or not"
  },
  {
   "property": "C17",
   "status": "proved",
   "theorems": [
    "Panda.C17_window_up",
    "Panda.C17_window_down",
    "Panda.C17_memory_bound",
    "Panda.C17_forgets"
   ],
   "note": "exact arithmetic"
  },
  {
   "property": "C18",
   "status": "proved",
   "theorems": [
    "Panda.C18_linear"
   ],
   "note": "exact arithmetic; FIR and IIR"
  },
  {
   "property": "C19",
   "status": "proved",
   "theorems": [
    "Panda.C19_time_invariant_up",
    "Panda.C19_time_invariant_down"
   ],
   "note": "exact arithmetic; FIR and IIR"
  },
  {
   "property": "C20",
   "status": "proved",
   "theorems": [
    "Panda.C20_causal",
    "Panda.C20_streaming",
    "Panda.C20_false_sse_early"
   ],
   "note": "sample-wise for everything but vectorised FIR (C20_false_sse_early: false there, as the statement says), block-wise for everything"
  },
  {
   "property": "C21",
   "status": "proved",
   "theorems": [
    "Panda.C21_gain_bound"
   ],
   "note": "exact arithmetic, coefficients accurate to 2^-24"
  },
  {
   "property": "C22",
   "status": "proved",
   "theorems": [
    "Panda.C22_no_overflow"
   ],
   "note": "all ratios"
  },
  {
   "property": "C23",
   "status": "proved",
   "theorems": [
    "Panda.C23_energy"
   ],
   "note": "exact arithmetic, coefficients accurate to 2^-24; at every time, all ratios"
  },
  {
   "property": "C24",
   "status": "partial",
   "theorems": [
    "Panda.C24_decays",
    "Panda.C24_silent_float_partial",
    "Panda.C24_false_sse_rings",
    "Panda.C24_false_sse_rings_down",
    "Panda.C24_false_sse_rings_up"
   ],
   "note": "exact arithmetic: proved; binary32: proved (down to 2^-57 after a time independent of the session) except with SSE and an odd number of coefficients, where it rings forever (negation proved for 8 bits with every mode and ratio, for downsampling with 12 and 16 bits, and by 2 with 24 bits; not for the other odd ones)"
  },
  {
   "property": "C25",
   "status": "proved",
   "theorems": [
    "Panda.C25_iir_sse_eq_fpu_even",
    "Panda.C25_iir_sse_eq_fpu_exact",
    "Panda.C25_false_odd"
   ],
   "note": "even stages bit for bit, all stages exactly; bit-identity is false for odd stages (proved)"
  },
  {
   "property": "C26",
   "status": "proved",
   "theorems": [
    "Panda.C26_iir_up",
    "Panda.C26_iir_down",
    "Panda.C26_iir_down_sse"
   ],
   "note": "order of operations included; odd coefficient counts with SSE have an extra section with coefficient 1"
  },
  {
   "property": "C27",
   "status": "partial",
   "theorems": [
    "Panda.C27_iir_memory_safe_partial",
    "Panda.C27_false_sse_down_reads_past_end",
    "Panda.C27_false_zero_samples",
    "Panda.C27_false_sse_down_iff"
   ],
   "note": "false as stated: SSE down reads two floats past the end, FPU code processes one sample when n = 0 (negations proved); safe otherwise"
  },
  {
   "property": "C28",
   "status": "partial",
   "theorems": [
    "Panda.C28_zero_samples_noop_partial",
    "Panda.C28_false_zero_processed_as_one",
    "Panda.C28_false_zero_processed_as_two"
   ],
   "note": "false for factor 2 IIR FPU code (negations proved); holds for FIR and for ratios 4 and 8"
  },
  {
   "property": "C29",
   "status": "partial",
   "theorems": [
    "Panda.C29_odd_block_rejected_partial",
    "Panda.C29_iir_odd_block_drops_sample",
    "Panda.C29_false_desync"
   ],
   "note": "odd blocks rejected by factor 2 FIR; ratio 4 desynchronises (negation proved)"
  },
  {
   "property": "C30",
   "status": "partial",
   "theorems": [
    "Panda.C30_large_blocks_partial",
    "Panda.C30_false_large_blocks"
   ],
   "note": "false for FIR UP by 2 with n >= 2^31 (negation proved)"
  },
  {
   "property": "C31",
   "status": "partial",
   "theorems": [
    "Panda.C31_ratio1_identity_partial",
    "Panda.C31_false_queries"
   ],
   "note": "identity proved; order()/sse_enabled() dereference null (negation proved)"
  },
  {
   "property": "C32",
   "status": "proved",
   "theorems": [
    "Panda.C32_constructible",
    "Panda.C32_false_iir_linear"
   ],
   "note": "for all supported combinations; IIR with PREC_LINEAR is not usable (negation proved)"
  },
  {
   "property": "C33",
   "status": "proved",
   "theorems": [
    "Panda.C33_find_precision",
    "Panda.C33_find_precision_monotone",
    "Panda.C33_find_precision_fixed"
   ],
   "note": ""
  },
  {
   "property": "C34",
   "status": "proved",
   "theorems": [
    "Panda.C34_precision_name",
    "Panda.C34_name_tells"
   ],
   "note": ""
  },
  {
   "property": "C35",
   "status": "proved",
   "theorems": [
    "Panda.C35_order",
    "Panda.C35_order_monotone",
    "Panda.C35_order_check_passes",
    "Panda.C35_create_complete"
   ],
   "note": ""
  },
  {
   "property": "C36",
   "status": "proved",
   "theorems": [
    "Panda.C36_sse_enabled",
    "Panda.C36_neon_iir_is_scalar"
   ],
   "note": ""
  },
  {
   "property": "C37",
   "status": "partial",
   "theorems": [
    "Panda.C37_construct_partial",
    "Panda.C37_ofVector_partial",
    "Panda.C37_read",
    "Panda.C37_write",
    "Panda.C37_destroy",
    "Panda.C37_lifetime_partial",
    "Panda.C37_false_overflow",
    "Panda.C37_false_malloc_fails"
   ],
   "note": "proved whenever malloc succeeds and the size fits into size_t; false otherwise (negations proved)"
  },
  {
   "property": "C38",
   "status": "partial",
   "theorems": [
    "Panda.C38_false_copy"
   ],
   "note": "false for every array of any length (negation proved)"
  },
  {
   "property": "C39",
   "status": "proved",
   "theorems": [
    "Panda.C39_passband_up",
    "Panda.C39_passband_up_binary32"
   ],
   "note": "all ratios, sums of sinusoids, disturbed by errors up to epsilon; real arithmetic with constants accurate to 2^-24, and binary32 arithmetic"
  },
  {
   "property": "C40",
   "status": "proved",
   "theorems": [
    "Panda.C40_pass_stop_down",
    "Panda.C40_pass_stop_down_binary32"
   ],
   "note": "all ratios; stop band = frequencies that alias into the pass band; real arithmetic with constants accurate to 2^-24, and binary32 arithmetic"
  },
  {
   "property": "C41",
   "status": "proved",
   "theorems": [
    "Panda.C41_dc_gain_fir",
    "Panda.C41_dc_gain_iir"
   ],
   "note": "FIR: explicit error; IIR: limit exactly 1 (exact arithmetic)"
  },
  {
   "property": "C42",
   "status": "proved",
   "theorems": [
    "Panda.C42_split_fpu",
    "Panda.C42_split_sse",
    "Panda.C42_bands_fpu",
    "Panda.C42_bands_sse",
    "Panda.C42_low_fpu_float",
    "Panda.C42_false_sse_binary32"
   ],
   "note": "bit-exact formulas for any sample type; bands equal in exact arithmetic, and in floating point for the FPU version. In binary32 the SSE low band can differ from process_block (overflow), shown by a witness"
  },
  {
   "property": "C43",
   "status": "partial",
   "theorems": [
    "Panda.C43_up_fpu",
    "Panda.C43_up_sse",
    "Panda.C43_down_fpu",
    "Panda.C43_down_sse",
    "Panda.C43_lanes_irrelevant",
    "Panda.C43_split_fpu_partial",
    "Panda.C43_split_sse_partial",
    "Panda.C43_false_split"
   ],
   "note": "true for process_block; for process_block_split the asserts are too weak (negation proved), true if the two outputs are disjoint"
  },
  {
   "property": "C50",
   "status": "partial",
   "theorems": [
    "Panda.C50_stop_band",
    "Panda.C50_false_144dB"
   ],
   "note": "whole resamplers, all ratios; exact coefficients: the dB number of the precision; coefficients of type float: 143 dB instead of 144 dB (that 144 dB are missed is proved), all other precisions as promised"
  },
  {
   "property": "C52",
   "status": "proved",
   "theorems": [
    "Panda.C52_instances_independent",
    "Panda.C52_interleaving_succeeds"
   ],
   "note": ""
  },
  {
   "property": "C53",
   "status": "proved",
   "theorems": [
    "Panda.C53_round_trip"
   ],
   "note": "all ratios, different precisions of the two resamplers allowed"
  },
  {
   "property": "C56",
   "status": "proved",
   "theorems": [
    "Panda.C56_response_down"
   ],
   "note": "real arithmetic, constants exact or rounded to binary32"
  },
  {
   "property": "C57",
   "status": "proved",
   "theorems": [
    "Panda.C57_response_up"
   ],
   "note": "real arithmetic, constants exact or rounded to binary32"
  },
  {
   "property": "C58",
   "status": "proved",
   "theorems": [
    "Panda.C58_amplitude"
   ],
   "note": ""
  },
  {
   "property": "C59",
   "status": "proved",
   "theorems": [
    "Panda.C59_round_trip",
    "Panda.C59_tone"
   ],
   "note": "different precisions of the two resamplers allowed"
  },
  {
   "property": "C55",
   "status": "proved",
   "theorems": [
    "Panda.C55_no_frequency_amplified"
   ],
   "note": ""
  },
  {
   "property": "C54",
   "status": "proved",
   "theorems": [
    "Panda.C54_outcome_data_independent"
   ],
   "note": ""
  },
  {
   "property": "C44",
   "status": "partial",
   "theorems": [
    "Panda.Designer.C44_false",
    "Panda.Designer.C44_positive_partial"
   ],
   "note": "false for small attenuations (negation proved for every transition bandwidth); true from 1 dB on"
  },
  {
   "property": "C45",
   "status": "proved",
   "theorems": [
    "Panda.Designer.C45_power",
    "Panda.Designer.C45_negative"
   ],
   "note": ""
  },
  {
   "property": "C46",
   "status": "partial",
   "theorems": [
    "Panda.Designer.C46_cell",
    "Panda.Designer.C46_additive",
    "Panda.Designer.C46_filter",
    "Panda.Designer.C46_false"
   ],
   "note": "true for coefficients in [0, 1), with the sharper claim that it is the derivative of the phase; false for the documented coefficient 1 (0/0, negation proved)"
  },
  {
   "property": "C47",
   "status": "partial",
   "theorems": [
    "Panda.Designer.C47_false",
    "Panda.Designer.C47_codes_partial"
   ],
   "note": "false (negation proved): a design that does not converge within 1000 steps is reported as OK; what the codes do mean is proved"
  },
  {
   "property": "C48",
   "status": "proved",
   "theorems": [
    "Panda.Designer.C48_terminates",
    "Panda.Designer.C48_num",
    "Panda.Designer.C48_den",
    "Panda.Designer.C48_nome"
   ],
   "note": "real arithmetic; integer overflow modelled (it ends the loop, too); result and explicit iteration bound for the values the designer uses"
  },
  {
   "property": "C61",
   "status": "proved",
   "theorems": [
    "Panda.Designer.C61_sufficient_minimal"
   ],
   "note": "1 dB to 10^9 dB"
  },
  {
   "property": "C62",
   "status": "partial",
   "theorems": [
    "Panda.Designer.C62_false",
    "Panda.Designer.C62_false_dc",
    "Panda.Designer.C62_value_partial"
   ],
   "note": "false (negation proved); what is returned instead is proved: one period minus the phase delay of the one-sample cell"
  },
  {
   "property": "C63",
   "status": "partial",
   "theorems": [
    "Panda.Designer.C63_false",
    "Panda.Designer.C63_total_partial"
   ],
   "note": "false (negation proved) from half the sample rate on; proved below it, with the range of the coefficients"
  },
  {
   "property": "C49",
   "status": "proved",
   "theorems": [
    "Panda.C49_constants"
   ],
   "note": "rational enclosures of the trigonometric values, checked in the kernel"
  },
  {
   "property": "C60",
   "status": "partial",
   "theorems": [
    "Panda.C60_delay_up_partial",
    "Panda.C60_delay_down_partial",
    "Panda.C60_false"
   ],
   "note": "false to the printed precision (negation proved: off by more than 0.011 samples for 48 dB); accuracy per precision proved"
  },
  {
   "property": "C64",
   "status": "proved",
   "theorems": [
    "Panda.C64_sizes"
   ],
   "note": "real arithmetic, interval certificates checked in the kernel"
  },
  {
   "property": "C65",
   "status": "proved",
   "theorems": [
    "Panda.C65_coefficients",
    "Panda.C65_mkiir"
   ],
   "note": "real arithmetic; the whole output of mkiir per table: size, coefficients, delay constant"
  },
  {
   "property": "C51",
   "status": "proved",
   "theorems": [
    "Panda.C51_self_test_exact",
    "Panda.C51_self_test_safe"
   ],
   "note": "result in exact arithmetic; memory safety for any arithmetic"
  },
  {
   "property": "C66",
   "status": "partial",
   "theorems": [
    "Panda.C66_false_binary32",
    "Panda.C66_small_orders_partial",
    "Panda.C66_tolerance_partial",
    "Panda.C66_rand_partial"
   ],
   "note": "false (negation proved): the tolerance is smaller than possible rounding errors; proved: the orders up to 13 always pass, and with the tolerance 0.00015 all orders would"
  },
  {
   "property": "C67",
   "status": "proved",
   "theorems": [
    "Panda.C67_peak_gain"
   ],
   "note": "exact arithmetic; factor per mode, ratio and precision"
  },
  {
   "property": "C68",
   "status": "partial",
   "theorems": [
    "Panda.C68_rounding_partial",
    "Panda.C68_linear_partial",
    "Panda.C68_false_sse_drift",
    "Panda.C68_false_sse_drift_down"
   ],
   "note": "false for SSE with an odd number of coefficients (negation proved for ratio 2 with 8, 12 and 24 bits, up and down: the error grows linearly, up to 0.0989 of full scale); proved without SSE and for even numbers; inputs of magnitude 2^-100 to 2^100. For every IIR configuration the errors grow at most linearly in sessions of up to 2^20 samples (C68_linear_partial). Whether they grow at all with odd stages of ratios 4 and 8 is neither proved nor refuted"
  },
  {
   "property": "C69",
   "status": "partial",
   "theorems": [
    "Panda.C69_no_overflow_partial",
    "Panda.C69_linear_partial",
    "Panda.C69_finite",
    "Panda.C69_false_sse_down"
   ],
   "note": "outputs finite: proved for every IIR configuration (inputs up to 2^36). Bound by the peak gain of C67: proved without SSE and for even numbers of coefficients (inputs of magnitude 2^-100 to 2^100); for SSE with an odd number: proved with an additional term that grows linearly with the length of the session, up to 2^20 samples (C69_linear_partial), and without that term the bound is false downsampling by 2 with 8, 12 or 24 bits (C69_false_sse_down). Upsampling by 2 and odd stages of ratios 4 and 8: neither proved nor refuted"
  },
  {
   "property": "C70",
   "status": "partial",
   "theorems": [
    "Panda.C70_fir_silent",
    "Panda.C70_false_subnormals_up",
    "Panda.C70_false_subnormals_down",
    "Panda.C70_false_cascade_up",
    "Panda.C70_false_cascade_down"
   ],
   "note": "proved for all FIR configurations in binary32. False for IIR of every mode, ratio but 1, and precision: after an impulse the filters stay in a cycle of subnormal numbers for ever"
  },
  {
   "property": "C71",
   "status": "partial",
   "theorems": [
    "Panda.C71_fir_recovers",
    "Panda.C71_false_iir"
   ],
   "note": "proved for all FIR configurations in binary32. False for every IIR configuration but ratio 1: one bad sample and all later output is bad"
  },
  {
   "property": "C72",
   "status": "proved",
   "theorems": [
    "Panda.C72_fir_tables_designed",
    "Panda.C72_every_table"
   ],
   "note": "real arithmetic; ultrwin is specified, not modelled (it is not part of the repository)"
  },
  {
   "property": "C73",
   "status": "proved",
   "theorems": [
    "Panda.C73_fir_taps",
    "Panda.C73_iir_coefs"
   ],
   "note": "binary64 to binary32, all tables, evaluated in the kernel"
  },
  {
   "property": "C74",
   "status": "proved",
   "theorems": [
    "Panda.C74_delay_double"
   ],
   "note": "binary64, every configuration"
  },
  {
   "property": "C75",
   "status": "proved",
   "theorems": [
    "Panda.Designer.C75_range",
    "Panda.Designer.C75_attenuation",
    "Panda.Designer.C75_poles",
    "Panda.Designer.C75_overflow"
   ],
   "note": "real arithmetic with the literal PI and the truncated series; int overflow modelled"
  },
  {
   "property": "C76",
   "status": "proved",
   "theorems": [
    "Panda.C76_rises",
    "Panda.C76_band_up",
    "Panda.C76_band_down",
    "Panda.C76_exact"
   ],
   "note": "real arithmetic; millionths of a sample; at 20 kHz delay() for ratio 2 is off by 5.7 to 14.1 samples of the higher rate"
  },
  {
   "property": "C77",
   "status": "partial",
   "theorems": [
    "Panda.C77_exactly_silent_partial",
    "Panda.C77_times",
    "Panda.C77_false_sse_rings"
   ],
   "note": "proved without SSE and for even numbers of coefficients, in every format that flushes subnormal results; false for SSE with an odd number of coefficients (negation proved)"
  },
  {
   "property": "C78",
   "status": "partial",
   "theorems": [
    "Panda.C78_exact_up",
    "Panda.C78_exact_down",
    "Panda.C78_binary32_up_partial",
    "Panda.C78_binary32_down_partial",
    "Panda.C78_false_up",
    "Panda.C78_false_down"
   ],
   "note": "exact arithmetic: proved for all precisions; binary32: proved for 8 bits (up), 8 and 12 bits (down), false for 20 bits and for 24 bits without SSE (negation proved), the rest is undecided"
  },
  {
   "property": "C79",
   "status": "proved",
   "theorems": [
    "Panda.C79_rounding",
    "Panda.C79_two_programs",
    "Panda.C79_passband_up",
    "Panda.C79_pass_stop_down"
   ],
   "note": "binary32, every choice of contractions"
  },
  {
   "property": "C80",
   "status": "proved",
   "theorems": [
    "Panda.C80_rounding",
    "Panda.C80_linear",
    "Panda.C80_two_programs"
   ],
   "note": "binary32, every choice of contractions; C80_rounding without SSE or for even numbers of coefficients, C80_linear for every configuration up to 2^20 samples, as in C68"
  },
  {
   "property": "C81",
   "status": "proved",
   "theorems": [
    "Panda.C81_down",
    "Panda.C81_up",
    "Panda.C81_down_linear",
    "Panda.C81_up_linear",
    "Panda.C81_down_contracted",
    "Panda.C81_up_contracted"
   ],
   "note": "binary32; the linear versions hold for every configuration up to 2^20 samples, the others for any length, without SSE or for even numbers of coefficients"
  },
  {
   "property": "C82",
   "status": "partial",
   "theorems": [
    "Panda.C82_in_place_exact",
    "Panda.C82_in_place_partial",
    "Panda.C82_iir_up_assert",
    "Panda.C82_false_fir_down_vec",
    "Panda.C82_false_fir_up",
    "Panda.C82_false_iir_up",
    "Panda.C82_false_up4"
   ],
   "note": "proved for ratio 1, DOWN by 4 and 8, UP by 4 and 8 up to 1024 samples, IIR DOWN, FIR DOWN by 2 without vector code, and short blocks of FIR resamplers with ratio 2; false otherwise (negation proved); with asserts enabled IIR UP by 2 stops in an assert"
  },
  {
   "property": "C83",
   "status": "proved",
   "theorems": [
    "Panda.C83_response_down",
    "Panda.C83_response_up",
    "Panda.C83_round_trip",
    "Panda.C83_subsample",
    "Panda.C83_round_trip_binary32",
    "Panda.C83_subsample_binary32"
   ],
   "note": "responses in exact arithmetic, round trips also in binary32"
  },
  {
   "property": "C84",
   "status": "partial",
   "theorems": [
    "Panda.C84_over_exact",
    "Panda.C84_sub_exact",
    "Panda.C84_over_binary32_partial"
   ],
   "note": "exact arithmetic: proved for all thresholds; binary32: proved for oversampling with 8 bits; 16 bits are undecided"
  },
  {
   "property": "C85",
   "status": "partial",
   "theorems": [
    "Panda.C85_up",
    "Panda.C85_down",
    "Panda.C85_over",
    "Panda.C85_down_binary32",
    "Panda.C85_up_binary32_partial",
    "Panda.C85_over_binary32_partial"
   ],
   "note": "exact arithmetic: proved for all modes, ratios and precisions; binary32: proved for downsampling, for upsampling except by 8 with 16 bits, and for oversampling by 2; the other cases are undecided"
  },
  {
   "property": "C86",
   "status": "proved",
   "theorems": [
    "Panda.C86_disjoint_parts"
   ],
   "note": "the part that is read includes the two samples behind the input that SSE IIR downsamplers read (C27)"
  },
  {
   "property": "C87",
   "status": "proved",
   "theorems": [
    "Panda.C87_polarity"
   ],
   "note": "binary32, and binary32 with FTZ (x86) or FZ (ARM); the sign of zero is not modelled"
  },
  {
   "property": "C88",
   "status": "partial",
   "theorems": [
    "Panda.C88_power_of_two_partial",
    "Panda.C88_any_exponent_partial",
    "Panda.C88_any_exponent_binary32",
    "Panda.C88_no_underflow_partial",
    "Panda.C88_false_tiny"
   ],
   "note": "proved for all configurations in binary32 for the output samples that are computed without underflow and overflow; proved for FIR in binary32 with samples that are multiples of 2^-25 before and after (24 bit audio); false for the smallest samples, FIR and IIR (negation proved)"
  },
  {
   "property": "C89",
   "status": "proved",
   "theorems": [
    "Panda.C89_safe",
    "Panda.C89_memory",
    "Panda.C89_no_leak",
    "Panda.C89_moves",
    "Panda.C89_moved_ratio_one",
    "Panda.C89_false_use_after_move",
    "Panda.C89_false_malloc"
   ],
   "note": "the two hypotheses are needed: using an object that was moved from is a null dereference (except for ratio 1), and a failing malloc is a write through a null pointer (both proved)"
  },
  {
   "property": "C90",
   "status": "proved",
   "theorems": [
    "Panda.C90_overshoot",
    "Panda.C90_overshoot_binary32",
    "Panda.C90_rising",
    "Panda.C90_falling",
    "Panda.C90_sharp"
   ],
   "note": "exact arithmetic with exact coefficients or coefficients rounded to float, and binary32; thousandths; rising and falling once the filters are filled"
  },
  {
   "property": "C91",
   "status": "proved",
   "theorems": [
    "Panda.Tool.C91_parse",
    "Panda.Tool.C91_unambiguous",
    "Panda.Tool.C91_help",
    "Panda.Tool.C91_safe",
    "Panda.Tool.C91_ranges",
    "Panda.Tool.C91_command",
    "Panda.Tool.C91_atoi",
    "Panda.Tool.C91_numeral"
   ],
   "note": "atof is any function from strings to an ordered type with 0 and 1; atoi is modelled"
  },
  {
   "property": "C92",
   "status": "partial",
   "theorems": [
    "Panda.Tool.C92_perf_partial",
    "Panda.Tool.C92_accuracy_partial",
    "Panda.Tool.C92_false_perf",
    "Panda.Tool.C92_false_accuracy"
   ],
   "note": "proved for block sizes below 2^31 (performance) and 2^30 (accuracy); false above (negation proved: for every block size from 2^31 on the performance test writes out of bounds, from 2^30 on an int can overflow in the accuracy test). malloc is assumed to succeed"
  },
  {
   "property": "C93",
   "status": "proved",
   "theorems": [
    "Panda.Tool.C93_numbers",
    "Panda.Tool.C93_compared",
    "Panda.Tool.C93_terminates",
    "Panda.Tool.C93_spectrum"
   ],
   "note": "C93_compared in exact arithmetic; C93_terminates for block sizes from 4 on and under a hypothesis on rand()"
  },
  {
   "property": "C94",
   "status": "partial",
   "theorems": [
    "Panda.Tool.C94_verdict_partial",
    "Panda.Tool.C94_false_one_sided"
   ],
   "note": "false (negation proved): the absolute value is missing, samples may be too small by any amount; proved: no sample is too large by more than t"
  },
  {
   "property": "C95",
   "status": "partial",
   "theorems": [
    "Panda.Tool.C95_impulse",
    "Panda.Tool.C95_complete_partial",
    "Panda.Tool.C95_false_subsampling"
   ],
   "note": "what is printed: proved for all. Complete: proved except for subsampling with 20 and 24 bits, where the response has nonzero samples after the 150 printed (negation proved)"
  },
  {
   "property": "C96",
   "status": "proved",
   "theorems": [
    "Panda.Tool.C96_check_passes",
    "Panda.Tool.C96_frequencies"
   ],
   "note": "real arithmetic (samples, phases, sin, log); table constants exact or accurate to 2^-24"
  },
  {
   "property": "C97",
   "status": "partial",
   "theorems": [
    "Panda.Tool.C97_addr",
    "Panda.Tool.C97_simple",
    "Panda.Tool.C97_multiperf_partial",
    "Panda.Tool.C97_multidelay_partial",
    "Panda.Tool.C97_downmulti_partial",
    "Panda.Tool.C97_distort",
    "Panda.Tool.C97_sawquality",
    "Panda.Tool.C97_false_multiperf",
    "Panda.Tool.C97_false_multidelay",
    "Panda.Tool.C97_false_linear"
   ],
   "note": "false as stated (negations proved): testmultiperf and testmultidelay with iir-sse read behind an array, IIR filters with 1 bit dereference null; holds otherwise. testdistort: fir and iir, not zita. testsawquality: an int overflows for frequencies that are not positive (C116)"
  },
  {
   "property": "C98",
   "status": "proved",
   "theorems": [
    "Panda.Tool.C98_saturation",
    "Panda.Tool.C98_block_size_independent",
    "Panda.Tool.C98_exact"
   ],
   "note": ""
  },
  {
   "property": "C99",
   "status": "proved",
   "theorems": [
    "Panda.Tool.C99_multidelay",
    "Panda.Tool.C99_differences"
   ],
   "note": "real arithmetic (samples, sin); table constants exact or accurate to 2^-24"
  },
  {
   "property": "C100",
   "status": "partial",
   "theorems": [
    "Panda.C100_new_partial",
    "Panda.C100_construct_partial",
    "Panda.C100_reset_partial",
    "Panda.C100_like_8_partial",
    "Panda.C100_false_null",
    "Panda.C100_false_overrun",
    "Panda.C100_false_gap"
   ],
   "note": "false as stated (negations proved): ratios 0, 3, 5, 6, 7 dereference null, ratios above 8 write n / 8 (8 * n) samples; holds for construction, delay, reset and blocks of no samples"
  },
  {
   "property": "C101",
   "status": "proved",
   "theorems": [
    "Panda.C101_exact_contract"
   ],
   "note": ""
  },
  {
   "property": "C102",
   "status": "proved",
   "theorems": [
    "Panda.Tool.C102_reset",
    "Panda.Tool.C102_bounded",
    "Panda.Tool.C102_continuous",
    "Panda.Tool.C102_static",
    "Panda.Tool.C102_documented"
   ],
   "note": "the bounds are for exact arithmetic with exact or rounded constants; reset bit for bit"
  },
  {
   "property": "C103",
   "status": "proved",
   "theorems": [
    "Panda.C103_power",
    "Panda.Tool.C103_saturation"
   ],
   "note": "exact arithmetic in the reals with exact or rounded constants; for IIR filters see C23"
  },
  {
   "property": "C104",
   "status": "proved",
   "theorems": [
    "Panda.C104_isometry",
    "Panda.C104_energy",
    "Panda.C104_injective",
    "Panda.C104_fir"
   ],
   "note": "IIR: exact arithmetic in any (for the limits Archimedean) ordered field, with exact or rounded constants; FIR: every arithmetic"
  },
  {
   "property": "C105",
   "status": "proved",
   "theorems": [
    "Panda.C105_all_pass",
    "Panda.C105_injective",
    "Panda.C105_isometry",
    "Panda.Tool.C105_saturation"
   ],
   "note": "exact arithmetic in any (for the limits Archimedean) ordered field, with exact or rounded constants"
  },
  {
   "property": "C106",
   "status": "proved",
   "theorems": [
    "Panda.C106_energy",
    "Panda.C106_lossless",
    "Panda.C106_injective",
    "Panda.C106_mirror"
   ],
   "note": "exact arithmetic in any (for the limit Archimedean) ordered field"
  },
  {
   "property": "C107",
   "status": "proved",
   "theorems": [
    "Panda.C107_onto",
    "Panda.C107_half"
   ],
   "note": "exact arithmetic in any ordered field, with exact or rounded constants; FIR and IIR"
  },
  {
   "property": "C108",
   "status": "proved",
   "theorems": [
    "Panda.C108_reversal"
   ],
   "note": "exact arithmetic over any commutative ring, arbitrary (rounded) constants; FIR"
  },
  {
   "property": "C109",
   "status": "proved",
   "theorems": [
    "Panda.C109_up",
    "Panda.C109_down"
   ],
   "note": "exact arithmetic in an Archimedean ordered field; coefficients with a relative error of at most 2^-24"
  },
  {
   "property": "C110",
   "status": "proved",
   "theorems": [
    "Panda.C110_integral"
   ],
   "note": "exact arithmetic in an ordered field; coefficients with a relative error of at most 2^-24"
  },
  {
   "property": "C111",
   "status": "proved",
   "theorems": [
    "Panda.C111_iir",
    "Panda.C111_fir",
    "Panda.C111_constants"
   ],
   "note": "exact arithmetic over any commutative ring with 1/2; arbitrary constants (IIR), constants for UP twice those for DOWN (FIR), which is proved for the constants rounded to binary32"
  },
  {
   "property": "C112",
   "status": "proved",
   "theorems": [
    "Panda.C112_up",
    "Panda.C112_down"
   ],
   "note": "exact arithmetic in any field of characteristic 0, arbitrary (rounded) constants"
  },
  {
   "property": "C113",
   "status": "partial",
   "theorems": [
    "Panda.C113_nearest_partial",
    "Panda.C113_overflow",
    "Panda.C113_false"
   ],
   "note": "binary64, including the rounding of the sum; holds for every double but one, for which the negation is proved"
  },
  {
   "property": "C114",
   "status": "proved",
   "theorems": [
    "Panda.Tool.C114_error_spectrum",
    "Panda.Tool.C114_saw_spectrum",
    "Panda.Tool.C114_window"
   ],
   "note": "real numbers for float and double; the transform of FFTW is modelled by the sum it is documented to compute"
  },
  {
   "property": "C115",
   "status": "partial",
   "theorems": [
    "Panda.Tool.C115_false",
    "Panda.Tool.C115_normalize_partial",
    "Panda.Tool.C115_covers_partial"
   ],
   "note": "false of the code; what the window covers and the value of normalize are proved"
  },
  {
   "property": "C116",
   "status": "partial",
   "theorems": [
    "Panda.Tool.C116_saw_partial",
    "Panda.Tool.C116_false"
   ],
   "note": "real numbers for float and double; the two theorems cover all frequencies"
  },
  {
   "property": "C117",
   "status": "proved",
   "theorems": [
    "Panda.Tool.C117_frequencies"
   ],
   "note": "binary32, with the rounding of the additions"
  },
  {
   "property": "C118",
   "status": "proved",
   "theorems": [
    "Panda.C118_float",
    "Panda.C118_double",
    "Panda.C118_operations",
    "Panda.C118_ftz",
    "Panda.C118_fz"
   ],
   "note": "infinities and NaNs are identified, the sign of zero is not modelled"
  },
  {
   "property": "C119",
   "status": "partial",
   "theorems": [
    "Panda.C119_flush_partial",
    "Panda.C119_false_tiny"
   ],
   "note": "proved for output samples without underflow and overflow on the way; false for samples of at most 2^-92 with every mode, ratio but 1 and precision from 8 bits (negation proved)"
  }
 ]
}
