import Verif.Model.TestCheck
import Verif.Props.OverTest
import Verif.Props.TestHarness
import Verif.Props.Threshold

/-!
# C96: `testresampler check` passes
-/

set_option linter.unusedSectionVars false

namespace Panda.Tool

open Panda Examples

private theorem tone_one (w p s : ℝ) : tones [(1, w, p)] s = Real.cos (w * s + p) := by simp [tones]

private theorem amps_one (w p : ℝ) : amps [(1, w, p)] = 1 := by simp [amps]

/-- The phase is what it should be, up to full turns. -/
private theorem phase_eq (c : ℝ) (n : ℕ) : ∃ j : ℕ, phase c n = c * n - j * (2 * Real.pi) := by
  induction n with
  | zero => exact ⟨0, by simp [phase]⟩
  | succ n ih =>
    obtain ⟨j, hj⟩ := ih
    refine ⟨j + (⌈(phase c n + c) / (2 * Real.pi)⌉₊ - 1), ?_⟩
    rw [phase, wrap]
    generalize ⌈(phase c n + c) / (2 * Real.pi)⌉₊ - 1 = m
    rw [hj]
    push_cast
    ring

private theorem sin_phase (c d : ℝ) (n : ℕ) : Real.sin (phase c n - d) = Real.cos (c * n - d - Real.pi / 2) := by
  obtain ⟨j, hj⟩ := phase_eq c n
  rw [Real.cos_sub_pi_div_two, hj, show c * n - j * (2 * Real.pi) - d = c * n - d - j * (2 * Real.pi) by ring,
    Real.sin_sub_nat_mul_two_pi]

private theorem sine_eq (f : ℝ) (i : ℕ) : sine f i = Real.cos (2 * Real.pi * f / 44100 * i - Real.pi / 2) := by
  have := sin_phase (f / 44100 * 2 * Real.pi) 0 i
  rw [sub_zero, sub_zero] at this
  rw [sine, this]
  congr 1
  ring

/-- How far the frequencies go. -/
private noncomputable def edge : ResampleType → ℝ
  | .up | .over => testEdge .up
  | .down | .sub => testEdge .down

private def delayOf (su : Setup) : ℚ :=
  match su.type with
  | .up => su.ups.totalDelay
  | .down => su.downs.totalDelay
  | .over => su.ups.totalDelay * (1 / 2) + su.downs.totalDelay
  | .sub => su.downs.totalDelay * 2 + su.ups.totalDelay

/-- Twice the threshold that is met. -/
private def thrOf (sse : Bool) (t : ResampleType) (p : ℕ) : ℕ :=
  match t with
  | .up => testDb2 sse .up p
  | .down => testDb2 sse .down p
  | .over => overDb2 p
  | .sub => subDb2

private theorem streams_delay [Sample ℝ] {su : Setup} (hs : su.Ok) {u0 d0 : Resampler ℝ} (hu0 : u0.Fresh su.ups) (hd0 : d0.Fresh su.downs)
    {s : St ℝ} {xs zs : List ℝ} (h : Streams su u0 d0 s xs zs) : sinShift su.type s = .ok (delayOf su) := by
  have hu : s.ups.delay = .ok su.ups.totalDelay ∧ s.downs.delay = .ok su.downs.totalDelay := by
    have ku : ∀ {xs zs}, s.ups.State su.ups u0 xs zs → s.ups.delay = .ok su.ups.totalDelay := fun h => by
      rw [h.evolves.delay, hu0.delay hs.ups]
    have kd : ∀ {xs zs}, s.downs.State su.downs d0 xs zs → s.downs.delay = .ok su.downs.totalDelay := fun h => by
      rw [h.evolves.delay, hd0.delay hs.downs]
    unfold Streams at h
    split at h
    · exact ⟨ku h.1, kd h.2⟩
    · exact ⟨ku h.2, kd h.1⟩
    · obtain ⟨_, h1, h2⟩ := h; exact ⟨ku h1, kd h2⟩
    · obtain ⟨_, h1, h2⟩ := h; exact ⟨ku h2, kd h1⟩
  unfold sinShift delayOf
  cases su.type <;> simp only [hu.1, hu.2, ok_bind, pure_eq_ok]

section

variable [Sample ℝ] [Accurate ℝ]

/-- A sinusoid, once the filters are filled. -/
private theorem long {su : Setup} (hs : su.Ok) (hp : su.precision ≠ 1) (h16 : su.type = .over → su.precision ∈ [8, 16])
    (hsub : su.type = .sub → su.precision = 16) (w p : ℝ) (hw : |w| ≤ edge su.type) (sse : Bool) (n : ℕ) (hn : 256 ≤ n) :
    |su.op (fun i : ℕ => Real.cos (w * i + p)) n - Real.cos (w * (freqFactor su.type * (n - (delayOf su : ℚ))) + p)| ≤
      level (thrOf sse su.type su.precision) := by
  have near : ∀ L, NearTones (fun i : ℕ => Real.cos (w * i + p)) ([(1, w, p)] ++ L) 0 0 ∨ L ≠ [] := by
    intro L
    by_cases h : L = []
    · left
      subst h
      intro i _
      simp [tones]
    · exact Or.inr h
  have near : NearTones (fun i : ℕ => Real.cos (w * i + p)) ([(1, w, p)] ++ []) 0 0 := (near []).resolve_right (by simp)
  have r1 : su.ups.ratio = 2 := rfl
  have r2 : su.downs.ratio = 2 := rfl
  have p1 : su.ups.precision = su.precision := rfl
  have p2 : su.downs.precision = su.precision := rfl
  unfold Setup.op delayOf thrOf freqFactor
  unfold edge at hw
  cases ht : su.type <;> simp only [ht] at hw ⊢
  · have := op_down hs.downs rfl rfl (P := [(1, w, p)]) (S := []) (by
      rw [r2]
      unfold testEdge at hw
      simp only [List.mem_cons, List.not_mem_nil, or_false, forall_eq, abs_mul]
      norm_num
      linarith) (by simp) le_rfl near (n := n) (by rw [r2]; omega)
    rw [tone_one, amps_one, r2, p2] at this
    refine (this.trans (le_of_eq ?_)).trans (test_exact_le hs.downs hp .down sse)
    simp [amps, p2]
  · have := op_up hs.ups rfl rfl (L := [(1, w, p)]) (by simpa [testEdge] using hw) le_rfl near (n := n) (by rw [r1]; omega)
    rw [tone_one, amps_one, r1, p1] at this
    have e := this.trans ((le_of_eq (by simp [p1])).trans (test_exact_le hs.ups hp .up sse))
    rw [show w * (1 / 2 * (n - ((su.ups.totalDelay : ℚ) : ℝ))) + p = w * ((n - ((su.ups.totalDelay : ℚ) : ℝ)) / (2 : ℕ)) + p by
      push_cast; ring]
    exact e
  · have := op_sub_tones hs.ups hs.downs rfl rfl rfl rfl rfl (L := [(1, w, p)]) (by
      rw [r2]
      unfold testEdge at hw
      simp only [List.mem_cons, List.not_mem_nil, or_false, forall_eq, abs_mul]
      norm_num
      linarith) le_rfl near (n := n) (by rw [r2]; omega)
    rw [tone_one, amps_one, r2, p1, p2, hsub ht] at this
    have e := this.trans ((le_of_eq (by simp)).trans test_sub_le)
    rw [show w * (1 * (n - ((su.downs.totalDelay * 2 + su.ups.totalDelay : ℚ) : ℝ))) + p =
      w * (n - ((su.downs.totalDelay : ℚ) * (2 : ℕ) + (su.ups.totalDelay : ℚ))) + p by push_cast; ring]
    exact e
  · have := op_over_tones hs.ups hs.downs rfl rfl rfl rfl rfl (L := [(1, w, p)]) (by simpa [testEdge] using hw) le_rfl near (n := n)
      (by omega)
    rw [tone_one, amps_one, r1, p1, p2] at this
    have e := this.trans ((le_of_eq (by simp)).trans (test_over_le (h16 ht)))
    rw [show w * (1 * (n - ((su.ups.totalDelay * (1 / 2) + su.downs.totalDelay : ℚ) : ℝ))) + p =
      w * (n - ((su.ups.totalDelay : ℚ) / (2 : ℕ) + (su.downs.totalDelay : ℚ))) + p by push_cast; ring]
    exact e

/-- The same from the first sample that is compared on. -/
private theorem short {su : Setup} (hs : su.Ok) (hp : su.precision ≠ 1) (h16 : su.type = .over → su.precision ∈ [8, 16])
    (hsub : su.type = .sub → su.precision = 16) (w p : ℝ) (hw : |w| ≤ edge su.type) (sse : Bool) (k : ℕ) (hk : su.order * 4 < k) :
    |su.op (fun i : ℕ => Real.cos (w * i + p)) k - Real.cos (w * (freqFactor su.type * (k - (delayOf su : ℚ))) + p)| ≤
      level (thrOf sse su.type su.precision) := by
  have h := long hs hp h16 hsub w (p - w * 512) hw sse (outN su.type 512 + k) (by
    unfold outN
    cases su.type <;> simp <;> omega)
  have e : su.op (fun i : ℕ => Real.cos (w * i + p)) k = su.op (fun i : ℕ => Real.cos (w * i + (p - w * 512))) (outN su.type 512 + k) := by
    rw [← op_delayed hs (fun i : ℕ => Real.cos (w * i + p)) (H := 512) (fun _ => rfl) k]
    refine op_local hs (H := 512) (P := 2 * (512 + k) + 2) ?_ (Or.inl (by omega)) ?_
    · intro i hi _
      obtain ⟨j, rfl⟩ : ∃ j, i = 512 + j := ⟨i - 512, by omega⟩
      unfold delayed
      rw [if_neg (by omega), Nat.add_sub_cancel_left]
      push_cast
      ring_nf
    · unfold outN
      cases su.type <;> simp <;> omega
  rw [e]
  convert h using 4
  unfold outN freqFactor
  cases su.type <;> simp only <;> push_cast <;> norm_num <;> ring

private theorem correct_eq {t : ResampleType} {f : ℝ} (h : t = .down ∨ t = .sub → f < 11025) (d : ℚ) (k : ℕ) :
    correct t f d k = Real.cos (2 * Real.pi * f / 44100 * (freqFactor t * (k - (d : ℚ))) + -(Real.pi / 2)) := by
  have hv : volume t f = 1 := by
    unfold volume
    cases t <;> simp at h ⊢ <;> exact h
  rw [correct, hv, mul_one, sin_phase]
  congr 1
  ring

private theorem passes_of_le {m : ℝ} {d : ℕ} (h0 : 0 ≤ m) (h : m ≤ level d) : Passes m (-((d : ℝ) / 2)) := by
  rcases h0.eq_or_lt with e | h0
  · exact Or.inl e.symm
  refine Or.inr (not_lt.2 ?_)
  have l10 : 0 < Real.log 10 := Real.log_pos (by norm_num)
  have := Real.log_le_log h0 h
  rw [level, Real.log_rpow (by norm_num)] at this
  rw [div_le_iff₀ l10]
  linarith

private theorem maxDiff_between {correct : ℕ → ℝ} {log : List (ℕ × ℝ)} {m t : ℝ} (h0 : 0 ≤ m) (hm : m ≤ t)
    (h : ∀ p ∈ log, |p.2 - correct p.1| ≤ t) :
    0 ≤ maxDiff (fun x => x) correct log m ∧ maxDiff (fun x => x) correct log m ≤ t := by
  induction log generalizing m with
  | nil => exact ⟨h0, hm⟩
  | cons p l ih =>
    have := (abs_le.1 (h p (by simp))).2
    exact ih (le_max_of_le_left h0) (max_le hm this) fun q hq => h q (by simp [hq])

private theorem freqsFrom_le (fmax finc : ℕ) (n f : ℕ) : ∀ g ∈ freqsFrom fmax finc n f, g ≤ fmax := by
  induction n generalizing f with
  | zero => simp [freqsFrom]
  | succ n ih =>
    intro g hg
    rw [freqsFrom] at hg
    split at hg
    · rcases List.mem_cons.1 hg with rfl | hg
      · omega
      · exact ih _ g hg
    · simp at hg

/-- What is true of every call of `run_accuracy`. -/
private structure Check.Fine (c : Check) : Prop where
  bits : c.bits ∈ [8, 12, 16, 20, 24]
  freq : c.fmax ≤ match c.type with | .up | .over => 18000 | .down | .sub => 9000
  over : c.type = .over → c.bits ∈ [8, 16]
  sub : c.type = .sub → c.bits = 16
  thr : ∃ sse, c.thr2 = thrOf sse c.type c.bits

private theorem checks_fine (avail : Bool) : ∀ c ∈ checks avail, c.Fine := by
  have h : ∀ avail : Bool, ∀ c ∈ checks avail, c.bits ∈ [8, 12, 16, 20, 24] ∧
      (c.fmax ≤ match c.type with | .up | .over => 18000 | .down | .sub => 9000) ∧ (c.type = .over → c.bits ∈ [8, 16]) ∧
      (c.type = .sub → c.bits = 16) ∧ (c.thr2 = thrOf true c.type c.bits ∨ c.thr2 = thrOf false c.type c.bits) := by decide +kernel
  intro c hc
  obtain ⟨h1, h2, h3, h4, h5⟩ := h avail c hc
  exact ⟨h1, h2, h3, h4, h5.elim (fun h => ⟨_, h⟩) fun h => ⟨_, h⟩⟩

private theorem precision_bits : ∀ b ∈ [8, 12, 16, 20, 24], findPrecisionForBits b = b := by decide

/-- **C96** (`testresampler check`) In exact arithmetic, all accuracy tests run by `testresampler check` pass: for every build, whatever the
allocator and the contents of the stack, for all sequences of values returned by `rand()` (they select sizes and alignments of the blocks)
and any number of iterations. (After how many iterations 20000 samples have been seen: C93.) -/
theorem C96_check_passes (bld : Build) (al : Alloc) (a b d : ℕ) (c : Check) (hc : c ∈ checks (sseAvailable bld))
    (stk : ℕ → Stack ℝ × Stack ℝ) (rand : ℕ → ℕ) (n : ℕ) :
    ∃ m, runAccuracy (c.setup bld al a b d) c stk rand n = .ok m ∧ Passes m (-((c.thr2 : ℝ) / 2)) := by
  have hf := checks_fine _ c hc
  set su := c.setup bld al a b d with hsu
  have hpr : su.precision = c.bits := precision_bits _ hf.bits
  have hs : su.Ok := by
    refine ⟨?_, ?_⟩
    · rw [hpr]
      exact List.mem_cons_of_mem _ hf.bits
    · intro h
      have : (sseAvailable bld && c.sse) = true := h
      simp only [Bool.and_eq_true, sseAvailable, Bool.or_eq_true] at this
      exact this.1
  have hty : su.type = c.type := rfl
  have hb : su.blockSize < 2 ^ 30 := (by decide : 128 < 2 ^ 30)
  have hp1 : su.precision ≠ 1 := by
    rw [hpr]
    intro h
    have := hf.bits
    rw [h] at this
    revert this
    decide
  obtain ⟨sse, hthr⟩ := hf.thr
  obtain ⟨u0, d0, hu0, hd0, s, h1, h2, -⟩ := start_sat (F := ℝ) hs (by omega)
  obtain ⟨as, h3, h4, h5⟩ := accFreqs_sat hs hb hu0 hd0 stk rand (c.freqs.map fun f : ℕ => (sine f, n)) h2 (fun _ => rfl) 0 0
  rw [List.length_map] at h4
  have hacc : accuracy su stk rand (c.freqs.map fun f : ℕ => (sine f, n)) = .ok as := by rw [accuracy, h1, ok_bind, h3]
  rw [runAccuracy, hacc, ok_bind]
  have key : ∀ p ∈ c.freqs.zip as, sinShift su.type p.2.s = .ok (delayOf su) ∧
      ∀ q ∈ p.2.log, |q.2 - correct su.type p.1 (delayOf su) q.1| ≤ level c.thr2 := by
    intro p hp
    have hp' : ((sine p.1, n), p.2) ∈ (c.freqs.map fun f : ℕ => (sine f, n)).zip as := by
      rw [show c.freqs.map (fun f : ℕ => (sine f, n)) = c.freqs.map fun f : ℕ => ((sine (f : ℝ)), n) from rfl, List.zip_map_left]
      exact List.mem_map.2 ⟨p, hp, rfl⟩
    obtain ⟨hx, hz, he, ⟨s0, h0⟩, hi, -⟩ := h5 _ hp'
    obtain ⟨ys, hg, -, -⟩ := hi.good
    refine ⟨streams_delay hs hu0 hd0 hg.streams, fun q hq => ?_⟩
    rw [accInv_log hs h0 he hi] at hq
    obtain ⟨k, hk, rfl⟩ := List.mem_map.1 hq
    have hk2 : su.order * 4 < k := by
      have := (List.mem_filter.1 hk).2
      simpa using this
    have hfr : p.1 ≤ c.fmax := freqsFrom_le _ _ _ _ _ (List.of_mem_zip hp).1
    have hfm := hf.freq
    have hfr' : (p.1 : ℝ) ≤ match c.type with | .up | .over => 18000 | .down | .sub => 9000 := by
      have : p.1 ≤ match c.type with | .up | .over => 18000 | .down | .sub => 9000 := hfr.trans hfm
      cases ht : c.type <;> simp only [ht] at this ⊢ <;> exact_mod_cast this
    rw [correct_eq (by
      rw [hty]
      intro h
      rcases h with h | h <;> rw [h] at hfr' <;> simp only at hfr' <;> linarith), hthr, ← hpr, ← hty]
    rw [show sine (p.1 : ℝ) = fun i : ℕ => Real.cos (2 * Real.pi * p.1 / 44100 * i + -(Real.pi / 2)) from
      funext fun i => by rw [sine_eq, ← sub_eq_add_neg]]
    refine short hs hp1 (fun h => by rw [hpr]; exact hf.over h) (fun h => by rw [hpr]; exact hf.sub h) _ _ ?_ sse k hk2
    have hpi := Real.pi_pos
    have hp0 : (0 : ℝ) ≤ p.1 := Nat.cast_nonneg _
    rw [abs_of_nonneg (by positivity), hty]
    unfold edge testEdge
    cases ht : c.type <;> simp only [ht] at hfr' ⊢ <;> nlinarith
  have fold : ∀ (l : List (ℕ × Acc ℝ)), (∀ p ∈ l, p ∈ c.freqs.zip as) → ∀ m : ℝ, 0 ≤ m → m ≤ level c.thr2 →
      ∃ m', l.foldlM (fun m (p : ℕ × Acc ℝ) => do
        let d ← sinShift su.type p.2.s
        pure (maxDiff (fun x => x) (correct su.type p.1 d) p.2.log m)) m = (.ok m' : Res ℝ) ∧ 0 ≤ m' ∧ m' ≤ level c.thr2 := by
    intro l
    induction l with
    | nil => exact fun _ m h0 h1 => ⟨m, rfl, h0, h1⟩
    | cons p l ih =>
      intro hl m h0 h1
      obtain ⟨k1, k2⟩ := key p (hl p (by simp))
      obtain ⟨b1, b2⟩ := maxDiff_between h0 h1 k2
      rw [List.foldlM_cons, k1, ok_bind, pure_eq_ok, ok_bind]
      exact ih (fun q hq => hl q (by simp [hq])) _ b1 b2
  obtain ⟨m, e1, e2, e3⟩ := fold _ (fun _ h => h) 0 le_rfl (level_pos _).le
  exact ⟨m, e1, passes_of_le e2 e3⟩

end

/-- **C96** The frequencies that are tested: all from the first one up to the last one, in steps of the increment, each once, in increasing
order. -/
theorem C96_frequencies (c : Check) (h : 0 < c.finc) :
    (∀ g, g ∈ c.freqs ↔ ∃ j, g = c.fmin + j * c.finc ∧ g ≤ c.fmax) ∧ c.freqs.Pairwise (· < ·) := by
  suffices ∀ n f, c.fmax + 1 ≤ f + n → (∀ g, g ∈ freqsFrom c.fmax c.finc n f ↔ ∃ j, g = f + j * c.finc ∧ g ≤ c.fmax) ∧
      (freqsFrom c.fmax c.finc n f).Pairwise (· < ·) from this _ _ (by omega)
  intro n
  induction n with
  | zero =>
    intro f hf
    refine ⟨fun g => ⟨fun hg => by simp [freqsFrom] at hg, fun ⟨j, h1, h2⟩ => ?_⟩, List.Pairwise.nil⟩
    have := Nat.zero_le (j * c.finc)
    omega
  | succ n ih =>
    intro f hf
    rw [freqsFrom]
    split
    · rename_i hlt
      obtain ⟨i1, i2⟩ := ih (f + c.finc) (by omega)
      refine ⟨fun g => ?_, List.pairwise_cons.2 ⟨fun g hg => ?_, i2⟩⟩
      · rw [List.mem_cons, i1]
        constructor
        · rintro (rfl | ⟨j, h1, h2⟩)
          · exact ⟨0, by simp, by omega⟩
          · exact ⟨j + 1, by rw [h1]; ring, h2⟩
        · rintro ⟨j, h1, h2⟩
          cases j with
          | zero => left; simpa using h1
          | succ j => right; exact ⟨j, by rw [h1]; ring, h2⟩
      · obtain ⟨j, h1, -⟩ := (i1 g).1 hg
        have := Nat.zero_le (j * c.finc)
        omega
    · rename_i hlt
      refine ⟨fun g => ⟨fun hg => by simp at hg, fun ⟨j, h1, h2⟩ => ?_⟩, List.Pairwise.nil⟩
      have := Nat.zero_le (j * c.finc)
      omega

/-- All checks have a positive increment; the fourth check tests 12350 Hz and 18000 Hz, but not 12340 Hz. -/
example : (∀ b, ∀ c ∈ checks b, 0 < c.finc) ∧ 12350 ∈ (⟨.over, false, 16, 50, 18000, 50, 2 * 89⟩ : Check).freqs ∧
    18000 ∈ (⟨.over, false, 16, 50, 18000, 50, 2 * 89⟩ : Check).freqs ∧ 12340 ∉ (⟨.over, false, 16, 50, 18000, 50, 2 * 89⟩ : Check).freqs := by
  refine ⟨by decide, ?_, ?_, ?_⟩
  · exact ((C96_frequencies _ (by decide)).1 _).2 ⟨246, by decide, by decide⟩
  · exact ((C96_frequencies _ (by decide)).1 _).2 ⟨359, by decide, by decide⟩
  · intro h
    obtain ⟨j, h1, -⟩ := ((C96_frequencies _ (by decide)).1 _).1 h
    simp only at h1
    omega

/-- Oversampling with 16 bits: 360 frequencies. -/
example (rand : ℕ → ℕ) (n : ℕ) : ∃ c ∈ checks true, c.type = .over ∧ c.bits = 16 ∧ c.freqs.length = 360 ∧
    ∃ m, runAccuracy (c.setup x86 someAlloc 8 4096 8192) c (fun _ => (⟨0, 0, 0, fun _ => 1⟩, ⟨0, 0, 0, fun _ => 2⟩)) rand n = .ok m ∧
      Passes m (-((178 : ℕ) / 2)) := by
  have := accurate_real
  exact ⟨⟨.over, true, 16, 50, 18000, 50, 2 * 89⟩, by decide, rfl, rfl, by decide +kernel,
    C96_check_passes x86 someAlloc 8 4096 8192 _ (by decide) _ rand n⟩

end Panda.Tool
