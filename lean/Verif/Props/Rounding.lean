import Verif.Props.Ringing
import Verif.Proofs.RoundingCascade

/-!
# Rounding errors of FIR resamplers (C11, C22)

`Fl S` are floating point numbers: every operation rounds its exact result with `S.rnd`; results that do not fit are Inf or
NaN. C11 is about any rounding with relative error `u` and absolute error `η`; the theorems with `binary32` in their
name are about IEEE single precision with round to nearest even.
-/

set_option linter.unusedSectionVars false

namespace Panda

open Examples Finset

/-- The number a finite float stands for. -/
def Fl.val {S : Format} (v : Fl S) : ℚ := Option.getD v 0

section general

variable {S : Format} {u η : ℚ}

private theorem acc_all (hu : 0 ≤ u) (hη : 0 ≤ η) (herr : ∀ q, |S.rnd q - q| ≤ u * |q| + η) (hfit : ∀ q, S.fits q = true) (Ω : ℚ) :
    S.Acc u η Ω := ⟨hu, hη, herr, fun q _ => hfit q⟩

private theorem le_total {f : ℕ → ℚ} (hf : ∀ n, 0 ≤ f n) {N n : ℕ} (hn : n < N) : f n ≤ ∑ i ∈ range N, f i :=
  single_le_sum (f := f) (fun i _ => hf i) (mem_range.2 hn)

private theorem taps_fin (hfit : ∀ q, S.fits q = true) (t : List Dec) (q : ℚ) :
    t.map (fun d => (Sample.ofDouble (d.toRat * q) : Fl S)) = (t.map fun d => S.rnd (d.toRat * q)).map fun q => Fl.fin q := by
  rw [List.map_map]
  exact List.map_congr_left fun d _ => if_pos (hfit _)

private theorem one_stage {ss : List (Stage (Fl S))} {s : Stage (Fl S)} (e : ss = [s]) {xs ys : List (Fl S)} (h : CascadeRel ss xs ys) :
    s.Rel xs ys := by
  subst e
  obtain ⟨zs, h1, h2⟩ := h
  have h2 : ys = zs := h2
  rw [h2]
  exact h1

/-- **C11** upsampling by 2: every sample is near the exactly computed filter value (with the taps as they are stored). -/
theorem C11_rounding_up2 (hu : 0 ≤ u) (hη : 0 ≤ η) (herr : ∀ q, |S.rnd q - q| ≤ u * |q| + η) (hfit : ∀ q, S.fits q = true)
    (cfg : Config) (hv : cfg.Valid) (hf : cfg.filter = .fir) (hm : cfg.mode = .up) (h2 : cfg.ratio = 2)
    (ops : List (Op (Fl S))) (hc : ∀ op ∈ ops, cfg.OpOk op) (r : Resampler (Fl S)) (os : List (Option (Buf (Fl S))))
    (h : cfg.session ops = .ok (r, os)) (x : List ℚ) (hx : fed ops = x.map fun q => Fl.fin q)
    (t : List Dec) (ht : firTable 2 cfg.precision = some t) (T : ℕ → ℚ) (hT : T = seq (t.map fun d => S.rnd (d.toRat * 2))) :
    ∃ y : List ℚ, cfg.produced ops os = y.map (fun q => Fl.fin q) ∧ y.length = 2 * x.length ∧
      ∀ n < y.length, |seq y n - firUpOp t.length T (seq x) n| ≤
        ((1 + u) ^ (t.length + 4) - 1) * firUpOp t.length (fun i => |T i|) (fun i => |seq x i|) n +
          (2 * t.length + 13 : ℕ) * η * (1 + u) ^ (t.length + 4) := by
  have hrel := Config.session_rel' hv hc h
  have e : cfg.stages (F := Fl S) = [.firUp cfg.vec ((t.map fun d => S.rnd (d.toRat * 2)).map fun q => Fl.fin q)] := by
    rw [Config.stages_two h2]
    simp only [Config.stage, hf, hm, ht, Option.toList, List.map_cons, List.map_nil]
    rw [taps_fin hfit]
  rw [hx] at hrel
  have hl := (firTable_length ht).1
  have hpos : ∀ n, 0 ≤ (1 + u) ^ (t.length + 4) * (firUpOp t.length (fun i => |T i|) (fun i => |seq x i|) n + (2 * t.length + 13 : ℕ) * η) := by
    intro n
    refine mul_nonneg (by positivity) (add_nonneg ?_ (by positivity))
    unfold firUpOp
    simp only [zext_abs]
    split
    · exact sum_nonneg fun _ _ => by positivity
    · positivity
  have := firUp_round (acc_all hu hη herr hfit _) (by simpa using hl) (one_stage e hrel) (fun n hn => by
    simp only [List.length_map]
    rw [← hT]
    exact le_total hpos hn)
  simpa only [List.length_map, ← hT] using this

/-- **C11** downsampling by 2. -/
theorem C11_rounding_down2 (hu : 0 ≤ u) (hη : 0 ≤ η) (herr : ∀ q, |S.rnd q - q| ≤ u * |q| + η) (hfit : ∀ q, S.fits q = true)
    (cfg : Config) (hv : cfg.Valid) (hf : cfg.filter = .fir) (hm : cfg.mode = .down) (h2 : cfg.ratio = 2)
    (ops : List (Op (Fl S))) (hc : ∀ op ∈ ops, cfg.OpOk op) (r : Resampler (Fl S)) (os : List (Option (Buf (Fl S))))
    (h : cfg.session ops = .ok (r, os)) (x : List ℚ) (hx : fed ops = x.map fun q => Fl.fin q)
    (t : List Dec) (ht : firTable 2 cfg.precision = some t) (T : ℕ → ℚ) (hT : T = seq (t.map fun d => S.rnd (d.toRat * 1))) :
    ∃ y : List ℚ, cfg.produced ops os = y.map (fun q => Fl.fin q) ∧ x.length = 2 * y.length ∧
      ∀ n < y.length, |seq y n - firDownOp t.length T (1 / 2) (seq x) n| ≤
        ((1 + u) ^ (t.length + 4) - 1) * firDownOp t.length (fun i => |T i|) (1 / 2) (fun i => |seq x i|) n +
          (2 * t.length + 13 : ℕ) * η * (1 + u) ^ (t.length + 4) := by
  have hrel := Config.session_rel' hv hc h
  have e : cfg.stages (F := Fl S) = [.firDown cfg.vec ((t.map fun d => S.rnd (d.toRat * 1)).map fun q => Fl.fin q)] := by
    rw [Config.stages_two h2]
    simp only [Config.stage, hf, hm, ht, Option.toList, List.map_cons, List.map_nil]
    rw [taps_fin hfit]
  rw [hx] at hrel
  have hl := (firTable_length ht).1
  have hpos : ∀ n, 0 ≤ (1 + u) ^ (t.length + 4) *
      (firDownOp t.length (fun i => |T i|) (1 / 2) (fun i => |seq x i|) n + (2 * t.length + 13 : ℕ) * η) := by
    intro n
    refine mul_nonneg (by positivity) (add_nonneg ?_ (by positivity))
    unfold firDownOp
    simp only [zext_abs]
    exact add_nonneg (sum_nonneg fun _ _ => by positivity) (by positivity)
  have := firDown_round (acc_all hu hη herr hfit _) (by simpa using hl) (one_stage e hrel) (fun n hn => by
    simp only [List.length_map]
    rw [← hT]
    exact le_total hpos hn)
  simpa only [List.length_map, ← hT] using this

private theorem fin_inj {y z : List ℚ} (h : y.map (fun q => (Fl.fin q : Fl S)) = z.map fun q => Fl.fin q) : y = z :=
  List.map_injective_iff.2 (fun _ _ h => Option.some.inj h) h

/-- **C11** Two factor 2 upsamplers with the same filter (with SSE or without, with whatever calls and alignments) that are
fed the same samples: the outputs differ by at most twice the bound. -/
theorem C11_sse_up2 (hu : 0 ≤ u) (hη : 0 ≤ η) (herr : ∀ q, |S.rnd q - q| ≤ u * |q| + η) (hfit : ∀ q, S.fits q = true)
    (cfg : Config) (hv : cfg.Valid) (hf : cfg.filter = .fir) (hm : cfg.mode = .up) (h2 : cfg.ratio = 2)
    (ops : List (Op (Fl S))) (hc : ∀ op ∈ ops, cfg.OpOk op) (r : Resampler (Fl S)) (os : List (Option (Buf (Fl S))))
    (h : cfg.session ops = .ok (r, os))
    (cfg' : Config) (hv' : cfg'.Valid) (hf' : cfg'.filter = .fir) (hm' : cfg'.mode = .up) (h2' : cfg'.ratio = 2)
    (hp : cfg'.precision = cfg.precision)
    (ops' : List (Op (Fl S))) (hc' : ∀ op ∈ ops', cfg'.OpOk op) (r' : Resampler (Fl S)) (os' : List (Option (Buf (Fl S))))
    (h' : cfg'.session ops' = .ok (r', os'))
    (x : List ℚ) (hx : fed ops = x.map fun q => Fl.fin q) (hx' : fed ops' = fed ops)
    (t : List Dec) (ht : firTable 2 cfg.precision = some t) (T : ℕ → ℚ) (hT : T = seq (t.map fun d => S.rnd (d.toRat * 2))) :
    ∃ y y' : List ℚ, cfg.produced ops os = y.map (fun q => Fl.fin q) ∧ cfg'.produced ops' os' = y'.map (fun q => Fl.fin q) ∧
      y.length = 2 * x.length ∧ y'.length = 2 * x.length ∧
      ∀ n < 2 * x.length, |seq y n - seq y' n| ≤
        2 * (((1 + u) ^ (t.length + 4) - 1) * firUpOp t.length (fun i => |T i|) (fun i => |seq x i|) n +
          (2 * t.length + 13 : ℕ) * η * (1 + u) ^ (t.length + 4)) := by
  obtain ⟨y, y1, y2, y3⟩ := C11_rounding_up2 hu hη herr hfit cfg hv hf hm h2 ops hc r os h x hx t ht T hT
  obtain ⟨z, z1, z2, z3⟩ := C11_rounding_up2 hu hη herr hfit cfg' hv' hf' hm' h2' ops' hc' r' os' h' x (by rw [hx', hx]) t
    (by rw [hp]; exact ht) T hT
  refine ⟨y, z, y1, z1, y2, z2, fun n hn => ?_⟩
  have a := y3 n (by omega)
  have b := z3 n (by omega)
  have := abs_sub_le (seq y n) (firUpOp t.length T (seq x) n) (seq z n)
  rw [abs_sub_comm (firUpOp _ _ _ _)] at this
  linarith

/-- **C11** The same for downsampling. -/
theorem C11_sse_down2 (hu : 0 ≤ u) (hη : 0 ≤ η) (herr : ∀ q, |S.rnd q - q| ≤ u * |q| + η) (hfit : ∀ q, S.fits q = true)
    (cfg : Config) (hv : cfg.Valid) (hf : cfg.filter = .fir) (hm : cfg.mode = .down) (h2 : cfg.ratio = 2)
    (ops : List (Op (Fl S))) (hc : ∀ op ∈ ops, cfg.OpOk op) (r : Resampler (Fl S)) (os : List (Option (Buf (Fl S))))
    (h : cfg.session ops = .ok (r, os))
    (cfg' : Config) (hv' : cfg'.Valid) (hf' : cfg'.filter = .fir) (hm' : cfg'.mode = .down) (h2' : cfg'.ratio = 2)
    (hp : cfg'.precision = cfg.precision)
    (ops' : List (Op (Fl S))) (hc' : ∀ op ∈ ops', cfg'.OpOk op) (r' : Resampler (Fl S)) (os' : List (Option (Buf (Fl S))))
    (h' : cfg'.session ops' = .ok (r', os'))
    (x : List ℚ) (hx : fed ops = x.map fun q => Fl.fin q) (hx' : fed ops' = fed ops)
    (t : List Dec) (ht : firTable 2 cfg.precision = some t) (T : ℕ → ℚ) (hT : T = seq (t.map fun d => S.rnd (d.toRat * 1))) :
    ∃ y y' : List ℚ, cfg.produced ops os = y.map (fun q => Fl.fin q) ∧ cfg'.produced ops' os' = y'.map (fun q => Fl.fin q) ∧
      x.length = 2 * y.length ∧ x.length = 2 * y'.length ∧
      ∀ n < y.length, |seq y n - seq y' n| ≤
        2 * (((1 + u) ^ (t.length + 4) - 1) * firDownOp t.length (fun i => |T i|) (1 / 2) (fun i => |seq x i|) n +
          (2 * t.length + 13 : ℕ) * η * (1 + u) ^ (t.length + 4)) := by
  obtain ⟨y, y1, y2, y3⟩ := C11_rounding_down2 hu hη herr hfit cfg hv hf hm h2 ops hc r os h x hx t ht T hT
  obtain ⟨z, z1, z2, z3⟩ := C11_rounding_down2 hu hη herr hfit cfg' hv' hf' hm' h2' ops' hc' r' os' h' x (by rw [hx', hx]) t
    (by rw [hp]; exact ht) T hT
  refine ⟨y, z, y1, z1, y2, z2, fun n hn => ?_⟩
  have a := y3 n (by omega)
  have b := z3 n (by omega)
  have := abs_sub_le (seq y n) (firDownOp t.length T (1 / 2) (seq x) n) (seq z n)
  rw [abs_sub_comm (firDownOp _ _ _ _ _)] at this
  linarith

end general

/-! ## binary32, all ratios -/

/-- Bounds for the rounding error in `10^-9` of the largest input sample, by mode, ratio and precision. -/
def rndNano : Mode → ℕ → ℕ → ℕ
  | .up, 2, 1 => 418
  | .up, 2, 8 => 2689
  | .up, 2, 12 => 3930
  | .up, 2, 16 => 5196
  | .up, 2, 20 => 6834
  | .up, 2, 24 => 8522
  | .up, 4, 1 => 835
  | .up, 4, 8 => 6210
  | .up, 4, 12 => 8911
  | .up, 4, 16 => 11858
  | .up, 4, 20 => 16738
  | .up, 4, 24 => 20656
  | .up, 8, 1 => 1252
  | .up, 8, 8 => 10300
  | .up, 8, 12 => 15676
  | .up, 8, 16 => 22014
  | .up, 8, 20 => 31750
  | .up, 8, 24 => 40318
  | .down, 2, 1 => 418
  | .down, 2, 8 => 1971
  | .down, 2, 12 => 2829
  | .down, 2, 16 => 3701
  | .down, 2, 20 => 4818
  | .down, 2, 24 => 5960
  | .down, 4, 1 => 835
  | .down, 4, 8 => 3777
  | .down, 4, 12 => 5257
  | .down, 4, 16 => 6823
  | .down, 4, 20 => 9283
  | .down, 4, 24 => 11301
  | .down, 8, 1 => 1252
  | .down, 8, 8 => 5551
  | .down, 8, 12 => 7940
  | .down, 8, 16 => 10598
  | .down, 8, 20 => 14500
  | .down, 8, 24 => 17911
  | _, _, _ => 0

private def bound (cfg : Config) : RndBound := cfg.tables.foldl (RndBound.step (2⁻¹ ^ 150) cfg.mode) RndBound.init

private instance decFits (η : ℚ) (m : Mode) (M Ω : ℚ) : (s : RndBound) → (ts : List (List Dec)) → Decidable (RndBound.Fits η m M Ω s ts)
  | _, [] => .isTrue trivial
  | s, t :: ts => by
    unfold RndBound.Fits
    exact @instDecidableAnd _ _ inferInstance (decFits η m M Ω (s.step η m t) ts)

private theorem numbers : ∀ m ∈ [Mode.up, Mode.down], ∀ r ∈ [1, 2, 4, 8], ∀ p ∈ [1, 8, 12, 16, 20, 24],
    (bound (cfg m r p true .fir)).a ≤ (gainMilli m r p : ℚ) / 1000 ∧ (bound (cfg m r p true .fir)).b ≤ 2⁻¹ ^ 140 ∧
    (bound (cfg m r p true .fir)).e ≤ (rndNano m r p : ℚ) / 10 ^ 9 ∧ (bound (cfg m r p true .fir)).f ≤ 2⁻¹ ^ 140 ∧
    RndBound.init.Fits (2⁻¹ ^ 150) m (2 ^ 100) (2 ^ 127) (cfg m r p true .fir).tables := by decide +kernel

private theorem fits_mono {η : ℚ} {m : Mode} {M N Ω : ℚ} (h : M ≤ N) : ∀ (ts : List (List Dec)) (s : RndBound), 0 ≤ s.a →
    s.Fits η m N Ω ts → s.Fits η m M Ω ts
  | [], _, _, _ => trivial
  | t :: ts, s, h0, ⟨h1, h2⟩ => by
    have h3 : 0 ≤ (s.step η m t).a := by
      simp only [RndBound.step, rndGain]
      have := stageGain_nonneg m t
      positivity
    refine ⟨le_trans ?_ h1, fits_mono h ts _ h3 h2⟩
    have := mul_le_mul_of_nonneg_left h h3
    linarith

/-- The bounds for a FIR resampler in binary32. -/
theorem Config.round_numbers (cfg : Config) (hv : cfg.Valid) {M : ℚ} (hM : M ≤ 2 ^ 100) {B : RndBound}
    (hB : B = cfg.tables.foldl (RndBound.step (2⁻¹ ^ 150) cfg.mode) RndBound.init) :
    B.a ≤ (gainMilli cfg.mode cfg.ratio cfg.precision : ℚ) / 1000 ∧ B.b ≤ 2⁻¹ ^ 140 ∧
    B.e ≤ (rndNano cfg.mode cfg.ratio cfg.precision : ℚ) / 10 ^ 9 ∧ B.f ≤ 2⁻¹ ^ 140 ∧
    RndBound.init.Fits (2⁻¹ ^ 150) cfg.mode M (2 ^ 127) cfg.tables := by
  obtain ⟨n1, n2, n3, n4, n5⟩ := numbers cfg.mode (by cases cfg.mode <;> simp) cfg.ratio hv.ratio cfg.precision hv.precision
  have et : cfg.tables = (Examples.cfg cfg.mode cfg.ratio cfg.precision true .fir).tables := rfl
  have eb : B = bound (Examples.cfg cfg.mode cfg.ratio cfg.precision true .fir) := hB
  rw [eb]
  exact ⟨n1, n2, n3, n4, fits_mono hM _ _ (by simp [RndBound.init]) n5⟩

private theorem taps32 : ∀ k ∈ [2, 4, 8], ∀ p ∈ [1, 8, 12, 16, 20, 24], ∀ t ∈ firTable k p, ∀ d ∈ t, ∀ q ∈ [(1 : ℚ), 2],
    |rnd32 (d.toRat * q) - d.toRat * q| ≤ u32r * |d.toRat * q| ∧ binary32.fits (rnd32 (d.toRat * q)) = true := by decide +kernel

/-- The FIR tables have even numbers of taps, which fit into binary32. -/
theorem Config.tables_ok32 (cfg : Config) (hv : cfg.Valid) : ∀ t ∈ cfg.tables, 2 ≤ t.length ∧ t.length % 2 = 0 ∧ TapsOk binary32 cfg.mode t := by
  intro t ht
  have : ∃ k ∈ [2, 4, 8], firTable k cfg.precision = some t := by
    unfold Config.tables at ht
    have : ∃ k, k ∈ [2, 4, 8] ∧ (firTable k cfg.precision).getD [] = t := by
      cases hm : cfg.mode <;> simp only [hm] at ht <;> obtain ⟨k, hk, e⟩ := List.mem_map.1 ht <;>
        have hk := (List.mem_filter.1 hk).1 <;> refine ⟨k, ?_, e⟩ <;>
        simp only [List.mem_cons, List.not_mem_nil, or_false] at hk ⊢ <;> omega
    obtain ⟨k, hk, e⟩ := this
    obtain ⟨t', ht'⟩ := Option.isSome_iff_exists.1 (tables_exist hk hv.precision).1
    rw [ht'] at e
    exact ⟨k, hk, by rw [ht']; exact congrArg some e⟩
  obtain ⟨k, hk, e⟩ := this
  have hl := firTable_length e
  refine ⟨hl.1, hl.2.2, fun d hd => ?_⟩
  exact taps32 k hk cfg.precision hv.precision t (by rw [e]; rfl) d hd _ (by cases cfg.mode <;> simp [Mode.scale])

/-- C11 and C22 for the relation between input and output. -/
theorem Config.rel_round32 (cfg : Config) (hv : cfg.Valid) (hf : cfg.filter = .fir) {is zs : List F32} (hrel : CascadeRel cfg.stages is zs)
    (M : ℚ) (hM : M ≤ 2 ^ 100) (hx : ∀ v ∈ is, ∃ q, v = Fl.fin q ∧ |q| ≤ M) :
    ∀ n < zs.length, ∃ y, seq zs n = Fl.fin y ∧
      |y| ≤ (gainMilli cfg.mode cfg.ratio cfg.precision : ℚ) / 1000 * M + 2⁻¹ ^ 140 ∧
      |y - cfg.op (fun i => (seq (is) i).val) n| ≤
        (rndNano cfg.mode cfg.ratio cfg.precision : ℚ) / 10 ^ 9 * M + 2⁻¹ ^ 140 := by
  intro n hn
  have hlen := Config.produced_length hv hrel
  obtain ⟨xs, hxs⟩ := exists_fin_list (is) fun n hn => by
    obtain ⟨q, h1, -⟩ := hx (is)[n] (List.getElem_mem hn)
    exact ⟨q, by rw [← h1]; simp [seq, List.getD_eq_getElem?_getD, hn]⟩
  have hM0 : 0 ≤ M := by
    have hne : is ≠ [] := by
      intro h0
      rw [hlen, h0] at hn
      unfold Config.outLen at hn
      cases hm : cfg.mode <;> simp [hm] at hn
    obtain ⟨a, ha⟩ := List.exists_mem_of_ne_nil _ hne
    obtain ⟨q, -, h2⟩ := hx a ha
    exact (abs_nonneg _).trans h2
  have hxM : ∀ n, |seq xs n| ≤ M := by
    intro n
    rcases Nat.lt_or_ge n xs.length with h1 | h1
    · obtain ⟨q, h2, h3⟩ := hx (Fl.fin (seq xs n)) (by
        rw [hxs]
        refine List.mem_map.2 ⟨_, ?_, rfl⟩
        rw [seq_lt h1]
        exact List.getElem_mem h1)
      rw [Option.some.inj h2]
      exact h3
    · rw [seq_ge h1, abs_zero]
      exact hM0
  obtain ⟨n1, n2, n3, n4, n5⟩ := cfg.round_numbers hv hM rfl
  rw [Config.stages_eq_tables hv hf, hxs] at hrel
  obtain ⟨zq, hz, z1, z2⟩ := cascade_round (binary32_acc (Ω := 2 ^ 127) (by norm_num)) (M := M) cfg.tables (by
      intro t ht
      exact cfg.tables_ok32 hv t ht)
    RndBound.init n5 hrel (by simpa [RndBound.init] using hxM)
    (r := fun i => (seq (is) i).val) (by simp [RndBound.init]) (by
      intro n _
      rw [hxs, seq_fin]
      simp [RndBound.init, Fl.val, Fl.fin])
  refine ⟨seq zq n, by rw [hz, seq_fin], ?_, ?_⟩
  · refine (z1 n).trans ?_
    exact add_le_add (mul_le_mul_of_nonneg_right n1 hM0) n2
  · have := z2 n (by simpa [hz] using hn)
    rw [Config.op, Config.stages_eq_tables hv hf]
    refine this.trans ?_
    exact add_le_add (mul_le_mul_of_nonneg_right n3 hM0) n4

private theorem main32 (cfg : Config) (hv : cfg.Valid) (hf : cfg.filter = .fir)
    (ops : List (Op F32)) (hc : ∀ op ∈ ops, cfg.OpOk op) (r : Resampler F32) (os : List (Option (Buf F32)))
    (h : cfg.session ops = .ok (r, os)) (M : ℚ) (hM : M ≤ 2 ^ 100) (hx : ∀ v ∈ fed ops, ∃ q, v = Fl.fin q ∧ |q| ≤ M) :
    ∀ n < (cfg.produced ops os).length, ∃ y, seq (cfg.produced ops os) n = Fl.fin y ∧
      |y| ≤ (gainMilli cfg.mode cfg.ratio cfg.precision : ℚ) / 1000 * M + 2⁻¹ ^ 140 ∧
      |y - cfg.op (fun i => (seq (fed ops) i).val) n| ≤
        (rndNano cfg.mode cfg.ratio cfg.precision : ℚ) / 10 ^ 9 * M + 2⁻¹ ^ 140 :=
  cfg.rel_round32 hv hf (Config.session_rel' hv hc h) M hM hx

/-- **C11** binary32, all ratios: every output sample of a FIR resampler whose input samples are finite and at most
`M ≤ 2^100` is finite and within `rndNano * 10^-9 * M + 2^-140` of what exact arithmetic with the exact coefficients gives. -/
theorem C11_binary32 (cfg : Config) (hv : cfg.Valid) (hf : cfg.filter = .fir)
    (ops : List (Op F32)) (hc : ∀ op ∈ ops, cfg.OpOk op) (r : Resampler F32) (os : List (Option (Buf F32)))
    (h : cfg.session ops = .ok (r, os)) (M : ℚ) (hM : M ≤ 2 ^ 100) (hx : ∀ v ∈ fed ops, ∃ q, v = Fl.fin q ∧ |q| ≤ M) :
    ∀ n < (cfg.produced ops os).length, ∃ y, seq (cfg.produced ops os) n = Fl.fin y ∧
      |y - cfg.op (fun i => (seq (fed ops) i).val) n| ≤
        (rndNano cfg.mode cfg.ratio cfg.precision : ℚ) / 10 ^ 9 * M + 2⁻¹ ^ 140 := by
  intro n hn
  obtain ⟨y, h1, -, h2⟩ := main32 cfg hv hf ops hc r os h M hM hx n hn
  exact ⟨y, h1, h2⟩

/-- **C11** binary32, all ratios: SSE or not, whatever the block sizes and alignments: two FIR resamplers for the same
mode, ratio and precision that are fed the same samples differ by at most twice the bound. -/
theorem C11_binary32_sse (cfg cfg' : Config) (hmode : cfg'.mode = cfg.mode) (hratio : cfg'.ratio = cfg.ratio)
    (hprec : cfg'.precision = cfg.precision) (hf : cfg.filter = .fir) (hf' : cfg'.filter = .fir) (hv : cfg.Valid) (hv' : cfg'.Valid)
    (ops ops' : List (Op F32)) (hc : ∀ op ∈ ops, cfg.OpOk op) (hc' : ∀ op ∈ ops', cfg'.OpOk op)
    (r r' : Resampler F32) (os os' : List (Option (Buf F32)))
    (h : cfg.session ops = .ok (r, os)) (h' : cfg'.session ops' = .ok (r', os')) (he : fed ops' = fed ops)
    (M : ℚ) (hM : M ≤ 2 ^ 100) (hx : ∀ v ∈ fed ops, ∃ q, v = Fl.fin q ∧ |q| ≤ M) :
    (cfg'.produced ops' os').length = (cfg.produced ops os).length ∧
    ∀ n < (cfg.produced ops os).length, ∃ y y', seq (cfg.produced ops os) n = Fl.fin y ∧ seq (cfg'.produced ops' os') n = Fl.fin y' ∧
      |y - y'| ≤ 2 * ((rndNano cfg.mode cfg.ratio cfg.precision : ℚ) / 10 ^ 9 * M + 2⁻¹ ^ 140) := by
  have hl : (cfg'.produced ops' os').length = (cfg.produced ops os).length := by
    rw [Config.produced_length hv (Config.session_rel' hv hc h), Config.produced_length hv' (Config.session_rel' hv' hc' h'), he]
    unfold Config.outLen
    rw [hmode, hratio]
  refine ⟨hl, fun n hn => ?_⟩
  obtain ⟨y, h1, -, h2⟩ := main32 cfg hv hf ops hc r os h M hM hx n hn
  obtain ⟨z, h3, -, h4⟩ := main32 cfg' hv' hf' ops' hc' r' os' h' M hM (by rwa [he]) n (by rwa [hl])
  rw [he, hmode, hratio, hprec, Config.op_congr hmode hratio hprec (by rw [hf, hf'])] at h4
  refine ⟨y, z, h1, h3, ?_⟩
  have := abs_sub_le y (cfg.op (fun i => (seq (fed ops) i).val) n) z
  rw [abs_sub_comm (cfg.op _ _)] at this
  linarith

/-- **C22** No overflow: with finite input samples up to `2^100` all outputs of a binary32 FIR resampler are finite, and
bounded as in exact arithmetic (`gainMilli`, see C21) up to `2^-140`; they are less than `2^127`. -/
theorem C22_no_overflow (cfg : Config) (hv : cfg.Valid) (hf : cfg.filter = .fir)
    (ops : List (Op F32)) (hc : ∀ op ∈ ops, cfg.OpOk op) (r : Resampler F32) (os : List (Option (Buf F32)))
    (h : cfg.session ops = .ok (r, os)) (M : ℚ) (hM : M ≤ 2 ^ 100) (hx : ∀ v ∈ fed ops, ∃ q, v = Fl.fin q ∧ |q| ≤ M) :
    ∀ v ∈ cfg.produced ops os, ∃ y, v = Fl.fin y ∧ |y| < 2 ^ 127 ∧
      |y| ≤ (gainMilli cfg.mode cfg.ratio cfg.precision : ℚ) / 1000 * M + 2⁻¹ ^ 140 := by
  intro v hvm
  obtain ⟨n, hn, rfl⟩ := List.mem_iff_getElem.1 hvm
  obtain ⟨y, h1, h2, -⟩ := main32 cfg hv hf ops hc r os h M hM hx n hn
  refine ⟨y, by rw [← h1]; simp [seq, List.getD_eq_getElem?_getD, hn], lt_of_le_of_lt h2 ?_, h2⟩
  have hg : ∀ m ∈ [Mode.up, Mode.down], ∀ r ∈ [1, 2, 4, 8], ∀ p ∈ [1, 8, 12, 16, 20, 24],
    (gainMilli m r p : ℚ) ≤ 8000 := by decide +kernel
  have := hg cfg.mode (by cases cfg.mode <;> simp) cfg.ratio hv.ratio cfg.precision hv.precision
  have h0 : (0 : ℚ) ≤ (gainMilli cfg.mode cfg.ratio cfg.precision : ℚ) / 1000 := by positivity
  have h8 : (gainMilli cfg.mode cfg.ratio cfg.precision : ℚ) / 1000 ≤ 8 := by linarith
  calc _ ≤ (gainMilli cfg.mode cfg.ratio cfg.precision : ℚ) / 1000 * 2 ^ 100 + 2⁻¹ ^ 140 := by gcongr
    _ ≤ 8 * 2 ^ 100 + 2⁻¹ ^ 140 := by gcongr
    _ < 2 ^ 127 := by norm_num

/-- A call with binary32 samples `1, 2, ..., n`. -/
def rampCall32 (n m : ℕ) : Call F32 :=
  { st := { block16 := 5, tmpAddr := 4, tmp2Addr := 8, junk := fun _ => 0 },
    input := { addr := 4, len := n, get := fun i => Fl.fin (i + 1) }, n := n,
    output := { addr := 100, len := m, get := fun _ => 0 } }

/-- C11 and C22 for a real session: 24 bits, ratio 8, SSE, 100 samples `1, 2, ..., 100`. -/
example : ∃ q, (cfg .up 8 24 true .fir).session [Op.process (rampCall32 100 800)] = .ok q ∧
    (∀ v ∈ (cfg .up 8 24 true .fir).produced [Op.process (rampCall32 100 800)] q.2, ∃ y, v = Fl.fin y ∧ |y| < 2 ^ 127) ∧
    (∀ n < ((cfg .up 8 24 true .fir).produced [Op.process (rampCall32 100 800)] q.2).length, ∃ y,
      seq ((cfg .up 8 24 true .fir).produced [Op.process (rampCall32 100 800)] q.2) n = Fl.fin y ∧
      |y - (cfg .up 8 24 true .fir).op (fun i => (seq (fed [Op.process (rampCall32 100 800)]) i).val) n| ≤ 5 / 1000) := by
  have hc : ∀ op ∈ [Op.process (rampCall32 100 800)], (cfg .up 8 24 true .fir).OpOk op := by
    intro op hop
    simp only [List.mem_cons, List.not_mem_nil, or_false] at hop
    subst hop
    exact ⟨by decide, by decide, by decide, by decide, by decide, by decide, by decide⟩
  have hv : (cfg .up 8 24 true .fir).Valid := ⟨by decide, by decide, by decide⟩
  obtain ⟨r, os, h, -⟩ := C04_output_frame (cfg .up 8 24 true .fir) hv _ hc
  have hx : ∀ v ∈ fed [Op.process (rampCall32 100 800)], ∃ q, v = Fl.fin q ∧ |q| ≤ 100 := by
    intro v hv
    obtain ⟨i, hi, rfl⟩ := List.mem_map.1 (show v ∈ (List.range 100).map (fun i : ℕ => (Fl.fin ((i : ℚ) + 1) : F32)) from hv)
    refine ⟨_, rfl, ?_⟩
    rw [abs_of_nonneg (by positivity)]
    have : i + 1 ≤ 100 := List.mem_range.1 hi
    exact_mod_cast this
  refine ⟨_, h, fun v hvm => ?_, fun n hn => ?_⟩
  · obtain ⟨y, h1, h2, -⟩ := C22_no_overflow _ hv rfl _ hc r os h 100 (by norm_num) hx v hvm
    exact ⟨y, h1, h2⟩
  · obtain ⟨y, h1, h2⟩ := C11_binary32 _ hv rfl _ hc r os h 100 (by norm_num) hx n hn
    refine ⟨y, h1, h2.trans ?_⟩
    norm_num [rndNano, cfg]

/-- Binary32 precision with an unbounded exponent meets the hypotheses of the general theorems. -/
example : ∃ S : Format, (∀ q, |S.rnd q - q| ≤ 2⁻¹ ^ 24 * |q| + 2⁻¹ ^ 150) ∧ (∀ q, S.fits q = true) ∧ S.rnd (1 / 3) ≠ 1 / 3 :=
  ⟨{ rnd := rnd32, fits := fun _ => true }, rnd32_err, fun _ => rfl, by decide +kernel⟩

end Panda
