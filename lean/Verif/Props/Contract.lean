import Verif.Props.Freq
import Verif.Proofs.Contract

/-!
# Contracted multiplications and additions (C79)

Compilers may compute `a * b + c` with one rounding. Samples are expressions (`Term`), and `Term.eval ch` computes their values, where
`ch` tells for every addition and subtraction in the program whether it is contracted with one of its operands.
-/

set_option linter.unusedSectionVars false

namespace Panda

open Examples Finset

/-- Without contraction, values are computed as for samples of type `Fl S`. -/
theorem Term.eval_none {S : Format} (ch : Term S → Fuse) (h : ∀ t, ch t = .none) (a b : Term S) :
    (a + b).eval ch = a.eval ch + b.eval ch ∧ (a - b).eval ch = a.eval ch - b.eval ch ∧ (a * b).eval ch = a.eval ch * b.eval ch := by
  refine ⟨?_, ?_, rfl⟩
  · show Term.Fuse.pick (ch (Term.add a b)) _ _ _ = _
    rw [h]
    rfl
  · show Term.Fuse.pick (ch (Term.sub a b)) _ _ _ = _
    rw [h]
    rfl

/-- A contracted addition rounds once. -/
theorem Term.eval_fma {S : Format} (ch : Term S → Fuse) {a b c : Term S} {x y z : ℚ} (h : ch (a * b + c) = .left)
    (ha : a.eval ch = Fl.fin x) (hb : b.eval ch = Fl.fin y) (hc : c.eval ch = Fl.fin z) : (a * b + c).eval ch = Fl.mk S (x * y + z) := by
  show Term.Fuse.pick (ch (a * b + c)) (· + ·) ((a * b).both ch) (c.both ch) = _
  rw [h]
  have e : (a * b).both ch = (a.eval ch * b.eval ch, Term.exactMul (a.eval ch) (b.eval ch)) := rfl
  have e' : (c.both ch).1 = Fl.fin z := hc
  simp only [Term.Fuse.pick, e, ha, hb, e']
  rfl

/-- Rounding of relations between inputs and outputs. -/
theorem Config.rel_roundT (cfg : Config) (hv : cfg.Valid) (hf : cfg.filter = .fir) (ch : Term binary32 → Fuse)
    {is zs : List (Term binary32)} (hrel : CascadeRel cfg.stages is zs)
    (M : ℚ) (hM : M ≤ 2 ^ 100) (hx : ∀ v ∈ is, ∃ q, v.eval ch = Fl.fin q ∧ |q| ≤ M) :
    ∀ n < zs.length, ∃ y, (seq zs n).eval ch = Fl.fin y ∧
      |y| ≤ (gainMilli cfg.mode cfg.ratio cfg.precision : ℚ) / 1000 * M + 2⁻¹ ^ 140 ∧
      |y - cfg.op (fun i => ((seq is i).eval ch).val) n| ≤
        (rndNano cfg.mode cfg.ratio cfg.precision : ℚ) / 10 ^ 9 * M + 2⁻¹ ^ 140 := by
  intro n hn
  have hlen := Config.produced_length hv hrel
  obtain ⟨xs, hxs⟩ := exists_fin_list (is.map (Term.eval ch)) fun n hn => by
    rw [List.length_map] at hn
    obtain ⟨q, h1, -⟩ := hx is[n] (List.getElem_mem hn)
    exact ⟨q, by rw [← h1]; simp [seq, List.getD_eq_getElem?_getD, hn]⟩
  have hne : is ≠ [] := by
    intro h0
    rw [hlen, h0] at hn
    unfold Config.outLen at hn
    cases hm : cfg.mode <;> simp [hm] at hn
  have hM0 : 0 ≤ M := by
    obtain ⟨a, ha⟩ := List.exists_mem_of_ne_nil _ hne
    obtain ⟨q, -, h2⟩ := hx a ha
    exact (abs_nonneg _).trans h2
  have hl : xs.length = is.length := by simpa using (congrArg List.length hxs).symm
  have hxM : ∀ n, |seq xs n| ≤ M := by
    intro n
    rcases Nat.lt_or_ge n xs.length with h1 | h1
    · obtain ⟨q, h2, h3⟩ := hx (seq is n) (by
        have h2 : n < is.length := hl ▸ h1
        rw [show seq is n = is[n] by simp [seq, List.getD_eq_getElem?_getD, h2]]
        exact List.getElem_mem _)
      rw [eval_seq hxs] at h2
      rw [Option.some.inj h2]
      exact h3
    · rw [seq_ge h1, abs_zero]
      exact hM0
  obtain ⟨n1, n2, n3, n4, n5⟩ := cfg.round_numbers hv hM rfl
  rw [Config.stages_eq_tables hv hf] at hrel
  obtain ⟨zq, hz, z1, z2⟩ := cascade_roundT (binary32_acc (Ω := 2 ^ 127) (by norm_num)) (M := M) cfg.tables (cfg.tables_ok32 hv)
    RndBound.init n5 hxs hrel (by simpa [RndBound.init] using hxM)
    (r := fun i => ((seq is i).eval ch).val) (by simp [RndBound.init]) (by
      intro n _
      rw [eval_seq hxs]
      simp [RndBound.init, Fl.val, Fl.fin])
  have lz : zq.length = zs.length := by simpa using (congrArg List.length hz).symm
  refine ⟨seq zq n, eval_seq hz n, ?_, ?_⟩
  · refine (z1 n).trans ?_
    exact add_le_add (mul_le_mul_of_nonneg_right n1 hM0) n2
  · have := z2 n (by rwa [lz])
    rw [Config.op, Config.stages_eq_tables hv hf]
    refine this.trans ?_
    exact add_le_add (mul_le_mul_of_nonneg_right n3 hM0) n4

/-- **C79** FIR: whichever multiplications and additions the compiler contracts, the bounds of C11 and C22 hold: every output sample is
finite, at most `gainMilli / 1000 * M + 2^-140`, and within `rndNano * 10^-9 * M + 2^-140` of what exact arithmetic gives. -/
theorem C79_rounding (cfg : Config) (hv : cfg.Valid) (hf : cfg.filter = .fir) (ch : Term binary32 → Fuse)
    (ops : List (Op (Term binary32))) (hc : ∀ op ∈ ops, cfg.OpOk op) (r : Resampler (Term binary32)) (os : List (Option (Buf (Term binary32))))
    (h : cfg.session ops = .ok (r, os)) (M : ℚ) (hM : M ≤ 2 ^ 100) (hx : ∀ v ∈ fed ops, ∃ q, v.eval ch = Fl.fin q ∧ |q| ≤ M) :
    ∀ n < (cfg.produced ops os).length, ∃ y, (seq (cfg.produced ops os) n).eval ch = Fl.fin y ∧
      |y| ≤ (gainMilli cfg.mode cfg.ratio cfg.precision : ℚ) / 1000 * M + 2⁻¹ ^ 140 ∧
      |y - cfg.op (fun i => ((seq (fed ops) i).eval ch).val) n| ≤
        (rndNano cfg.mode cfg.ratio cfg.precision : ℚ) / 10 ^ 9 * M + 2⁻¹ ^ 140 :=
  cfg.rel_roundT hv hf ch (Config.session_rel' hv hc h) M hM hx

/-- **C79** FIR: two programs for the same mode, ratio and precision, compiled with or without contraction, with SSE or without, called
with whatever blocks, that are fed samples of the same values, differ by at most twice the bound. -/
theorem C79_two_programs (cfg cfg' : Config) (hmode : cfg'.mode = cfg.mode) (hratio : cfg'.ratio = cfg.ratio)
    (hprec : cfg'.precision = cfg.precision) (hf : cfg.filter = .fir) (hf' : cfg'.filter = .fir) (hv : cfg.Valid) (hv' : cfg'.Valid)
    (ch ch' : Term binary32 → Fuse)
    (ops ops' : List (Op (Term binary32))) (hc : ∀ op ∈ ops, cfg.OpOk op) (hc' : ∀ op ∈ ops', cfg'.OpOk op)
    (r r' : Resampler (Term binary32)) (os os' : List (Option (Buf (Term binary32))))
    (h : cfg.session ops = .ok (r, os)) (h' : cfg'.session ops' = .ok (r', os'))
    (he : (fed ops').map (Term.eval ch') = (fed ops).map (Term.eval ch))
    (M : ℚ) (hM : M ≤ 2 ^ 100) (hx : ∀ v ∈ fed ops, ∃ q, v.eval ch = Fl.fin q ∧ |q| ≤ M) :
    (cfg'.produced ops' os').length = (cfg.produced ops os).length ∧
    ∀ n < (cfg.produced ops os).length, ∃ y y', (seq (cfg.produced ops os) n).eval ch = Fl.fin y ∧
      (seq (cfg'.produced ops' os') n).eval ch' = Fl.fin y' ∧
      |y - y'| ≤ 2 * ((rndNano cfg.mode cfg.ratio cfg.precision : ℚ) / 10 ^ 9 * M + 2⁻¹ ^ 140) := by
  have hfl : (fed ops').length = (fed ops).length := by simpa using congrArg List.length he
  have hl : (cfg'.produced ops' os').length = (cfg.produced ops os).length := by
    rw [Config.produced_length hv (Config.session_rel' hv hc h), Config.produced_length hv' (Config.session_rel' hv' hc' h'), hfl]
    unfold Config.outLen
    rw [hmode, hratio]
  refine ⟨hl, fun n hn => ?_⟩
  obtain ⟨y, h1, -, h2⟩ := C79_rounding cfg hv hf ch ops hc r os h M hM hx n hn
  obtain ⟨z, h3, -, h4⟩ := C79_rounding cfg' hv' hf' ch' ops' hc' r' os' h' M hM (fun v hv => by
    have hm : v.eval ch' ∈ (fed ops).map (Term.eval ch) := he ▸ List.mem_map_of_mem hv
    obtain ⟨w, hw, e⟩ := List.mem_map.1 hm
    rw [← e]
    exact hx w hw) n (by rwa [hl])
  have e : (fun i => ((seq (fed ops') i).eval ch').val) = fun i => ((seq (fed ops) i).eval ch).val := by
    funext i
    rw [eval_seq', eval_seq', he]
  rw [e, hmode, hratio, hprec, Config.op_congr hmode hratio hprec (by rw [hf, hf'])] at h4
  refine ⟨y, z, h1, h3, ?_⟩
  have := abs_sub_le y (cfg.op (fun i => ((seq (fed ops) i).eval ch).val) n) z
  rw [abs_sub_comm (cfg.op _ _)] at this
  linarith

private theorem valT_near (cfg : Config) (hv : cfg.Valid) (hf : cfg.filter = .fir) (ch : Term binary32 → Fuse)
    (ops : List (Op (Term binary32))) (hc : ∀ op ∈ ops, cfg.OpOk op) (r : Resampler (Term binary32)) (os : List (Option (Buf (Term binary32))))
    (h : cfg.session ops = .ok (r, os)) (M : ℚ) (hM : M ≤ 2 ^ 100) (hx : ∀ v ∈ fed ops, ∃ q, v.eval ch = Fl.fin q ∧ |q| ≤ M)
    (x : ℕ → ℝ) (hxx : ∀ i < (fed ops).length, x i = ((((seq (fed ops) i).eval ch).val : ℚ) : ℝ)) :
    ∀ n < (cfg.produced ops os).length, ∃ y : ℚ, (seq (cfg.produced ops os) n).eval ch = Fl.fin y ∧
      |(y : ℝ) - cfg.op x n| ≤ (rndNano cfg.mode cfg.ratio cfg.precision : ℝ) / 10 ^ 9 * M + 2⁻¹ ^ 140 := by
  have := accurate_real
  intro n hn
  obtain ⟨y, h1, -, h2⟩ := C79_rounding cfg hv hf ch ops hc r os h M hM hx n hn
  refine ⟨y, h1, ?_⟩
  have e : cfg.op x n = cfg.op (fun i => ((((seq (fed ops) i).eval ch).val : ℚ) : ℝ)) n := by
    refine cascadeOp_causal (k := (fed ops).length) (fun s hs v t e => (Config.stages_taps s hs v t e).1) hxx n ?_
    rw [Config.cascadeN hv]
    rwa [Config.produced_length hv (Config.session_rel' hv hc h)] at hn
  rw [e, ← Config.op_cast hv hf (fun _ => rfl) (by simp [Sample.half]), ← Rat.cast_sub, ← Rat.cast_abs]
  refine le_trans (Rat.cast_le.2 h2) (le_of_eq ?_)
  push_cast
  rfl

private noncomputable def contT (ch : Term binary32 → Fuse) (xs : List (Term binary32)) (L : List (ℝ × ℝ × ℝ)) (i : ℕ) : ℝ :=
  if i < xs.length then ((((seq xs i).eval ch).val : ℚ) : ℝ) else tones L i

private theorem contT_near {ch : Term binary32 → Fuse} {xs : List (Term binary32)} {L : List (ℝ × ℝ × ℝ)} {ε : ℝ} (hε : 0 ≤ ε) {N : ℕ}
    (h : ∀ i, N ≤ i → i < xs.length → |((((seq xs i).eval ch).val : ℚ) : ℝ) - tones L i| ≤ ε) : NearTones (contT ch xs L) L ε N := by
  intro i hi
  unfold contT
  split
  · exact h i hi (by assumption)
  · simpa using hε

/-- **C79** The pass band of FIR upsamplers (C39) with contraction. -/
theorem C79_passband_up (cfg : Config) (hv : cfg.Valid) (hf : cfg.filter = .fir) (hm : cfg.mode = .up) (ch : Term binary32 → Fuse)
    (ops : List (Op (Term binary32))) (hc : ∀ op ∈ ops, cfg.OpOk op) (r : Resampler (Term binary32)) (os : List (Option (Buf (Term binary32))))
    (h : cfg.session ops = .ok (r, os)) (M : ℚ) (hM : M ≤ 2 ^ 100) (hx : ∀ v ∈ fed ops, ∃ q, v.eval ch = Fl.fin q ∧ |q| ≤ M)
    (L : List (ℝ × ℝ × ℝ)) (hL : ∀ a ∈ L, |a.2.1| ≤ 40 * Real.pi / 49)
    (ε : ℝ) (hε : 0 ≤ ε) (N : ℕ)
    (hN : ∀ i, N ≤ i → i < (fed ops).length → |((((seq (fed ops) i).eval ch).val : ℚ) : ℝ) - tones L i| ≤ ε) :
    ∃ d : ℚ, r.delay = .ok d ∧
      ∀ n < (cfg.produced ops os).length, cfg.ratio * (N + 63) ≤ n →
        ∃ y : ℚ, (seq (cfg.produced ops os) n).eval ch = Fl.fin y ∧ |(y : ℝ) - tones L ((n - d) / cfg.ratio)| ≤
          (sineNano .up cfg.ratio cfg.precision : ℝ) / 10 ^ 9 * amps L + (gainMilli .up cfg.ratio cfg.precision : ℝ) / 1000 * ε +
          ((rndNano .up cfg.ratio cfg.precision : ℝ) / 10 ^ 9 * M + 2⁻¹ ^ 140) := by
  have := accurate_real
  refine ⟨cfg.totalDelay, Config.Reachable.delay hv ⟨ops, os, hc, h⟩, fun n hn hset => ?_⟩
  obtain ⟨y, h1, h2⟩ := valT_near cfg hv hf ch ops hc r os h M hM hx (contT ch (fed ops) L) (fun i hi => if_pos hi) n hn
  refine ⟨y, h1, ?_⟩
  have h3 := op_up hv hf hm hL hε (contT_near hε hN) hset
  rw [hm] at h2
  rw [abs_le] at h2 h3 ⊢
  constructor <;> linarith [h2.1, h2.2, h3.1, h3.2]

/-- **C79** The pass band and the stop band of FIR downsamplers (C40) with contraction. -/
theorem C79_pass_stop_down (cfg : Config) (hv : cfg.Valid) (hf : cfg.filter = .fir) (hm : cfg.mode = .down) (ch : Term binary32 → Fuse)
    (ops : List (Op (Term binary32))) (hc : ∀ op ∈ ops, cfg.OpOk op) (r : Resampler (Term binary32)) (os : List (Option (Buf (Term binary32))))
    (h : cfg.session ops = .ok (r, os)) (M : ℚ) (hM : M ≤ 2 ^ 100) (hx : ∀ v ∈ fed ops, ∃ q, v.eval ch = Fl.fin q ∧ |q| ≤ M)
    (P S : List (ℝ × ℝ × ℝ)) (hP : ∀ a ∈ P, |cfg.ratio * a.2.1| ≤ 40 * Real.pi / 49)
    (hS : ∀ a ∈ S, ∃ j : ℤ, ¬ (cfg.ratio : ℤ) ∣ j ∧ |cfg.ratio * a.2.1 - 2 * Real.pi * j| ≤ 40 * Real.pi / 49)
    (ε : ℝ) (hε : 0 ≤ ε) (N : ℕ)
    (hN : ∀ i, N ≤ i → i < (fed ops).length → |((((seq (fed ops) i).eval ch).val : ℚ) : ℝ) - (tones P i + tones S i)| ≤ ε) :
    ∃ d : ℚ, r.delay = .ok d ∧
      ∀ m < (cfg.produced ops os).length, N / cfg.ratio + 65 ≤ m →
        ∃ y : ℚ, (seq (cfg.produced ops os) m).eval ch = Fl.fin y ∧ |(y : ℝ) - tones P (cfg.ratio * (m - d))| ≤
          (sineNano .down cfg.ratio cfg.precision : ℝ) / 10 ^ 9 * amps P +
          (stopNano cfg.ratio cfg.precision : ℝ) / 10 ^ 9 * amps S +
          (gainMilli .down cfg.ratio cfg.precision : ℝ) / 1000 * ε +
          ((rndNano .down cfg.ratio cfg.precision : ℝ) / 10 ^ 9 * M + 2⁻¹ ^ 140) := by
  have := accurate_real
  refine ⟨cfg.totalDelay, Config.Reachable.delay hv ⟨ops, os, hc, h⟩, fun n hn hset => ?_⟩
  obtain ⟨y, h1, h2⟩ := valT_near cfg hv hf ch ops hc r os h M hM hx (contT ch (fed ops) (P ++ S)) (fun i hi => if_pos hi) n hn
  refine ⟨y, h1, ?_⟩
  have h3 := op_down hv hf hm hP hS hε (contT_near hε fun i h1 h2 => by rw [tones_append]; exact hN i h1 h2) hset
  rw [hm] at h2
  rw [abs_le] at h2 h3 ⊢
  constructor <;> linarith [h2.1, h2.2, h3.1, h3.2]

/-! ## Concrete cases -/

/-- A compiler that contracts wherever the right operand is a product. -/
def fuseRight : Term binary32 → Fuse
  | .add _ (.mul _ _) => .right
  | .sub _ (.mul _ _) => .right
  | _ => .none

/-- A call with samples `1/3, 2/3, ..., n/3`, rounded. -/
def termCall (n m : ℕ) : Call (Term binary32) :=
  { st := { block16 := 5, tmpAddr := 4, tmp2Addr := 8, junk := fun _ => 0 },
    input := { addr := 4, len := n, get := fun i => .leaf i (Fl.fin (rnd32 ((i + 1) / 3))) }, n := n,
    output := { addr := 100, len := m, get := fun _ => 0 } }

/-- Contraction makes a difference: two steps of a dot product whose value is exactly 0. -/
example :
    let t := Term.leaf 0 (Fl.fin 0) + Term.leaf 1 (Fl.fin (rnd32 (1 / 3))) * Term.leaf 2 (Fl.fin (rnd32 (2 / 3))) +
      Term.leaf 3 (Fl.fin (rnd32 (-2 / 3))) * Term.leaf 4 (Fl.fin (rnd32 (1 / 3)))
    t.eval fuseRight = Fl.fin (1864135 / 2 ^ 49) ∧ t.eval (fun _ => .none) = Fl.fin 0 := by decide +kernel

private theorem termCall_le : ∀ v ∈ fed [Op.process (termCall 100 800)], ∃ q, v.eval fuseRight = Fl.fin q ∧ |q| ≤ 40 := by
  intro v hv
  have hb : ∀ i < 100, |rnd32 (((i : ℕ) + 1) / 3)| ≤ 40 := by decide +kernel
  obtain ⟨i, hi, rfl⟩ := List.mem_map.1 (show v ∈ (List.range 100).map
    (fun i : ℕ => (Term.leaf i (Fl.fin (rnd32 (((i : ℕ) + 1) / 3))) : Term binary32)) from hv)
  exact ⟨_, rfl, hb i (List.mem_range.1 hi)⟩

/-- C79 for a real session: 24 bits, ratio 8, with and without SSE, contracted and not. -/
example : ∃ q q', (cfg .up 8 24 true .fir).session [Op.process (termCall 100 800)] = .ok q ∧
    (cfg .up 8 24 false .fir).session [Op.process (termCall 100 800)] = .ok q' ∧
    ∀ n < 800, ∃ y y', (seq ((cfg .up 8 24 true .fir).produced [Op.process (termCall 100 800)] q.2) n).eval fuseRight = Fl.fin y ∧
      (seq ((cfg .up 8 24 false .fir).produced [Op.process (termCall 100 800)] q'.2) n).eval (fun _ => .none) = Fl.fin y' ∧
      |y - y'| ≤ 4 / 1000 := by
  have hc : ∀ s, ∀ op ∈ [Op.process (termCall 100 800)], (cfg .up 8 24 s .fir).OpOk op := by
    intro s op hop
    simp only [List.mem_cons, List.not_mem_nil, or_false] at hop
    subst hop
    cases s <;> exact ⟨by decide, by decide, by decide, by decide, by decide, by decide, by decide⟩
  have hv : ∀ s, (cfg .up 8 24 s .fir).Valid := fun s => by cases s <;> exact ⟨by decide, by decide, by decide⟩
  obtain ⟨r, os, h, -⟩ := C04_output_frame (cfg .up 8 24 true .fir) (hv true) _ (hc true)
  obtain ⟨r', os', h', -⟩ := C04_output_frame (cfg .up 8 24 false .fir) (hv false) _ (hc false)
  refine ⟨_, _, h, h', fun n hn => ?_⟩
  have hlen : ((cfg .up 8 24 true .fir).produced [Op.process (termCall 100 800)] os).length = 800 := by
    rw [Config.produced_length (hv true) (Config.session_rel' (hv true) (hc true) h)]
    rfl
  obtain ⟨y, y', h1, h2, h3⟩ := (C79_two_programs (cfg .up 8 24 true .fir) (cfg .up 8 24 false .fir) rfl rfl rfl rfl rfl (hv true) (hv false)
    fuseRight (fun _ => .none) _ _ (hc true) (hc false) r r' os os' h h' rfl 40 (by norm_num) termCall_le).2 n (by rw [hlen]; exact hn)
  refine ⟨y, y', h1, h2, h3.trans ?_⟩
  norm_num [rndNano, cfg]

end Panda
