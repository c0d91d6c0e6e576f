import Verif.Proofs.Interval
import Verif.Proofs.IirConfig
import Verif.Proofs.DesignerDelay

/-! # The group delays of the IIR tables -/

namespace Panda

/-- Group delay of sections with the given coefficients, if `c` is the cosine of the angle. -/
noncomputable def listDelay (l : List (ℤ × ℤ)) (c : ℝ) : ℝ :=
  (l.map fun q => 2 * (1 - pairVal q ^ 2) / (pairVal q ^ 2 + 2 * pairVal q * c + 1)).sum

/-- The same with intervals. -/
def delayIv (C : Iv) : List (ℤ × ℤ) → Option Iv
  | [] => some ⟨0, 0⟩
  | q :: l => do
    let a := Iv.rat q.1 q.2
    let a2 := a.mul a
    let t ← ((Iv.one.sub a2).nsmul 2).div ((a2.add ((a.nsmul 2).mul C)).add Iv.one)
    let r ← delayIv C l
    pure (t.add r)

theorem delayIv_has {C : Iv} {c : ℝ} (hC : C.Has c) : ∀ {l : List (ℤ × ℤ)} {R : Iv}, (∀ q ∈ l, |q.1| < q.2) → delayIv C l = some R →
    R.Has (listDelay l c)
  | [], R, _, h => by
    obtain rfl := Option.some.inj h
    simp [listDelay, Iv.Has]
  | q :: l, R, hl, h => by
    have hq : 0 < q.2 := lt_of_le_of_lt (abs_nonneg _) (hl q (by simp))
    have hq' : (q.2 : ℝ) ≠ 0 := by exact_mod_cast hq.ne'
    unfold delayIv at h
    simp only at h
    rw [Option.bind_eq_bind, Option.bind_eq_some_iff] at h
    obtain ⟨t, ht, h⟩ := h
    rw [Option.bind_eq_some_iff] at h
    obtain ⟨r, hr, h⟩ := h
    obtain rfl := Option.some.inj h
    have ha : (Iv.rat q.1 q.2).Has (pairVal q) := Iv.has_rat hq (by unfold pairVal; field_simp)
    have ha2 := ha.mul ha
    have h1 := (((Iv.has_one.sub ha2).nsmul 2).div ((ha2.add ((ha.nsmul 2).mul hC)).add Iv.has_one) ht).1
    have h2 := delayIv_has hC (fun q hq => hl q (by simp [hq])) hr
    have h3 := h1.add h2
    simp only [listDelay, List.map_cons, List.sum_cons] at h3 ⊢
    push_cast at h3
    rw [pow_two]
    exact h3

/-- `2 · 2 π 1000 / (44100 k)` -/
def angleIv (k : ℕ) : Iv := (Iv.pi.nsmul 40).divN (441 * k)

/-- What is checked for a table: group delays of both branches. -/
def delayCheck (C : Iv) (l : List (ℤ × ℤ)) (gd : ℤ × ℤ) (eps0 eps : ℤ) : Bool :=
  match delayIv C (everyOther l), delayIv C (everyOther l.tail) with
  | some t0, some t1 =>
    let g := Iv.rat gd.1 gd.2
    decide (g.hi - eps0 ≤ t0.lo ∧ t0.hi ≤ g.lo + eps0 ∧
      2 * g.hi - 2 * eps ≤ t0.lo + t1.lo + Iv.S ∧ t0.hi + t1.hi + Iv.S ≤ 2 * g.lo + 2 * eps)
  | _, _ => false

theorem Iv.le_of_has {I J : Iv} {x y : ℝ} (hx : I.Has x) (hy : J.Has y) {e : ℤ} (h : I.hi ≤ J.lo + e) : x ≤ y + e / 10 ^ 40 := by
  have h1 : (I.hi : ℝ) ≤ J.lo + e := by exact_mod_cast h
  have h2 : x * 10 ^ 40 ≤ (y + e / 10 ^ 40) * 10 ^ 40 := by
    rw [add_mul, div_mul_cancel₀ _ (by positivity)]
    linarith [hx.2, hy.1]
  exact le_of_mul_le_mul_right h2 (by positivity)

theorem delayCheck_sound {C : Iv} {c : ℝ} (hC : C.Has c) {l : List (ℤ × ℤ)} (hl : ∀ q ∈ l, |q.1| < q.2) {gd : ℤ × ℤ} (hg : 0 < gd.2)
    {eps0 eps : ℤ} (h : delayCheck C l gd eps0 eps = true) :
    |listDelay (everyOther l) c - pairVal gd| ≤ eps0 / 10 ^ 40 ∧
    |(listDelay (everyOther l) c + listDelay (everyOther l.tail) c + 1) / 2 - pairVal gd| ≤ eps / 10 ^ 40 := by
  unfold delayCheck at h
  split at h
  · rename_i t0 t1 h0 h1
    simp only [decide_eq_true_eq] at h
    obtain ⟨c1, c2, c3, c4⟩ := h
    have hg' : (gd.2 : ℝ) ≠ 0 := by exact_mod_cast hg.ne'
    have g : (Iv.rat gd.1 gd.2).Has (pairVal gd) := Iv.has_rat hg (by unfold pairVal; field_simp)
    have H0 := delayIv_has hC (fun q hq => hl q (mem_everyOther hq)) h0
    have H1 := delayIv_has hC (fun q hq => hl q (List.mem_of_mem_tail (mem_everyOther hq))) h1
    have b1 := Iv.le_of_has H0 g (e := eps0) c2
    have b2 := Iv.le_of_has g H0 (e := eps0) (by omega)
    have hs := (H0.add H1).add Iv.has_one
    have b3 := Iv.le_of_has hs (g.nsmul 2) (e := 2 * eps) (by simp only [Iv.add, Iv.nsmul, Iv.one]; push_cast; omega)
    have b4 := Iv.le_of_has (g.nsmul 2) hs (e := 2 * eps) (by simp only [Iv.add, Iv.nsmul, Iv.one]; push_cast; omega)
    push_cast at b3 b4
    rw [abs_le, abs_le]
    refine ⟨⟨by linarith, by linarith⟩, ?_, ?_⟩
    · rw [mul_div_assoc] at b4
      linarith
    · rw [mul_div_assoc] at b3
      linarith
  · cases h

/-- The group delay constant of a table. -/
def iirGd (k p : ℕ) : Dec := ((iirTable k p).getD ([], ⟨0, 0⟩)).2

/-- How far a group delay constant can be from the group delay of the filter at 1 kHz, in units of `10^-7`. -/
def delayTol : ℕ → ℕ
  | 8 => 113000
  | 12 => 4000
  | 16 => 1100
  | 20 => 25
  | _ => 6

set_option maxRecDepth 4000 in
theorem delay_checks : ∀ k ∈ [2, 4, 8], ∀ p ∈ [8, 12, 16, 20, 24],
    delayCheck (angleIv k).cos (iirPairs k p) ((iirGd k p).m, (10 ^ (iirGd k p).e : ℕ)) (5 * 10 ^ 33) (delayTol p * 10 ^ 33) = true ∧
    delayCheck (angleIv k).cos (iirPairs32 k p) ((iirGd k p).m, (10 ^ (iirGd k p).e : ℕ)) (6 * 10 ^ 33) (delayTol p * 10 ^ 33) = true := by
  decide +kernel

theorem angle_has {x : ℝ} (hx : Iv.pi.Has x) {k : ℕ} (hk : 0 < k) : (angleIv k).cos.Has (Real.cos (40 * x / (441 * k))) := by
  have h := (hx.nsmul 40).divN (by omega : 0 < 441 * k)
  push_cast at h
  refine h.cos ?_
  have h1 := hx.1
  have h2 := hx.2
  unfold Iv.pi at h1 h2
  push_cast at h1 h2
  have hx0 : 0 ≤ x := by linarith
  have hx4 : x ≤ 4 := by linarith
  have hk' : (1 : ℝ) ≤ k := by exact_mod_cast hk
  rw [abs_of_nonneg (by positivity), div_le_iff₀ (by positivity)]
  nlinarith

theorem has_PI : Iv.pi.Has Designer.PI := by
  unfold Iv.Has Iv.pi Designer.PI
  norm_num

theorem iirGd_pos (k p : ℕ) : (0 : ℤ) < ((10 ^ (iirGd k p).e : ℕ) : ℤ) := by positivity

theorem pairVal_gd (k p : ℕ) : pairVal ((iirGd k p).m, (10 ^ (iirGd k p).e : ℕ)) = ((iirGd k p).toRat : ℝ) := by
  unfold pairVal Dec.toRat
  rw [Rat.mkRat_eq_div]
  push_cast
  rfl

/-! ## The constants and the designer -/

namespace Designer

theorem delay_sum_list (f : ℝ) : ∀ l : List (ℤ × ℤ),
    ∑ i ∈ Finset.range ((l.length + 1) / 2), delayOf (seq (l.map pairVal) (2 * i)) f false =
      listDelay (everyOther l) (Real.cos (2 * (2 * PI * f)))
  | [] => rfl
  | [a] => by
    simp only [List.length_singleton, listDelay, everyOther, List.map_cons, List.map_nil, List.sum_cons, List.sum_nil]
    norm_num [delayOf, seq, pow_two]
  | a :: b :: l => by
    rw [show ((a :: b :: l).length + 1) / 2 = (l.length + 1) / 2 + 1 by simp only [List.length_cons]; omega, Finset.sum_range_succ']
    have ih := delay_sum_list f l
    have e : ∀ i, seq ((a :: b :: l).map pairVal) (2 * (i + 1)) = seq (l.map pairVal) (2 * i) := fun i => by
      rw [show 2 * (i + 1) = 2 * i + 1 + 1 by ring]
      simp [seq]
    simp only [e]
    rw [ih]
    simp only [listDelay, everyOther, List.map_cons, List.sum_cons]
    rw [add_comm]
    congr 1
    norm_num [delayOf, seq, pow_two]

theorem iirPairs_nonneg : ∀ k ∈ [2, 4, 8], ∀ p ∈ [8, 12, 16, 20, 24], (0 < (iirPairs k p).length) ∧ ∀ q ∈ iirPairs k p, 0 ≤ q.1 := by
  decide +kernel

theorem mkGroupDelay_const (bld : Build) (addr : ℕ) {k p : ℕ} (hk : k ∈ [2, 4, 8]) (hp : p ∈ [8, 12, 16, 20, 24]) :
    ∃ d, mkGroupDelay bld k ⟨addr, (iirTab k p).length, seq ((iirTab k p).map fun d => (d.toRat : ℝ))⟩ (iirTab k p).length = .ok d ∧
      |d - ((iirGd k p).toRat : ℝ)| ≤ 1 / 2 * (1 / 10 ^ 6) := by
  have hpairs : (iirTab k p).map (fun d => (d.toRat : ℝ)) = (iirPairs k p).map pairVal := by
    unfold iirPairs
    rw [List.map_map]
    refine List.map_congr_left fun d _ => ?_
    simp only [Function.comp, pairVal]
    unfold Dec.toRat
    rw [Rat.mkRat_eq_div]
    push_cast
    rfl
  have hlen : (iirTab k p).length = (iirPairs k p).length := by simp [iirPairs]
  have hk0 : 0 < k := by
    simp only [List.mem_cons, List.not_mem_nil, or_false] at hk
    omega
  have hk1 : (1 : ℝ) ≤ k := by exact_mod_cast hk0
  rw [hpairs, hlen]
  unfold mkGroupDelay
  rw [groupDelay_ok bld _ (iirPairs_nonneg k hk p hp).1 le_rfl _ (by positivity) (by rw [div_lt_div_iff₀ (by positivity) (by norm_num)]; linarith) false]
  · refine ⟨_, rfl, ?_⟩
    rw [delay_sum_list]
    have := (delayCheck_sound (angle_has has_PI hk0) (fun q hq => (iirPairs_lt k hk p hp q hq).2) (iirGd_pos k p) (delay_checks k hk p hp).1).1
    rw [show 2 * (2 * PI * (1000 / (44100 * (k : ℝ)))) = 40 * PI / (441 * k) by field_simp; ring, ← pairVal_gd]
    refine this.trans ?_
    norm_num
  · intro i hi
    simp only
    have e : seq ((iirPairs k p).map pairVal) i = pairVal (iirPairs k p)[i] := by simp [seq, hi]
    rw [e]
    have h1 := (iirPairs_lt k hk p hp _ (List.getElem_mem hi)).2
    have h0 := (iirPairs_nonneg k hk p hp).2 _ (List.getElem_mem hi)
    generalize (iirPairs k p)[i] = q at h0 h1
    rw [abs_of_nonneg h0] at h1
    have h0' : (0 : ℝ) ≤ q.1 := by exact_mod_cast h0
    have h1' : (q.1 : ℝ) < q.2 := by exact_mod_cast h1
    unfold pairVal
    exact ⟨div_nonneg h0' (by linarith), by rw [div_lt_one (by linarith)]; exact h1'⟩

end Designer

/-! ## Group delay of filters -/

theorem hasDerivAt_listPhase (θ : ℝ) : ∀ l : List (ℤ × ℤ), (∀ q ∈ l, |q.1| < q.2) →
    HasDerivAt (Bern.listPhase l) (-(listDelay l (Real.cos θ) / 2)) θ
  | [], _ => by
    simp only [listDelay, List.map_nil, List.sum_nil, zero_div, neg_zero]
    exact hasDerivAt_const θ 0
  | q :: l, h => by
    have hq := h q (by simp)
    have h0 : 0 < q.2 := lt_of_le_of_lt (abs_nonneg _) hq
    have h0' : (0 : ℝ) < q.2 := by exact_mod_cast h0
    have ha : |(q.1 : ℝ) / q.2| < 1 := by
      rw [abs_div, abs_of_pos h0', div_lt_one h0']
      exact_mod_cast hq
    have h1 := (hasDerivAt_apPhase ha θ).add (hasDerivAt_listPhase θ l fun q hq => h q (by simp [hq]))
    have e : Bern.listPhase (q :: l) = apPhase ((q.1 : ℝ) / q.2) + Bern.listPhase l := by
      funext x
      simp [Bern.listPhase]
    rw [e]
    refine h1.congr_deriv ?_
    simp only [listDelay, List.map_cons, List.sum_cons, pairVal]
    ring

theorem hasDerivAt_iirPhase {l : List (ℤ × ℤ)} (hl : ∀ q ∈ l, |q.1| < q.2) (v : ℝ) :
    HasDerivAt (iirPhase l.length (seq (l.map pairVal)))
      (-((listDelay (everyOther l) (Real.cos (2 * v)) + listDelay (everyOther l.tail) (Real.cos (2 * v)) + 1) / 2)) v := by
  have e : iirPhase l.length (seq (l.map pairVal)) =
      fun v => (Bern.listPhase (everyOther l) (2 * v) + Bern.listPhase (everyOther l.tail) (2 * v) - v) / 2 := by
    funext v
    unfold iirPhase branchOutPhase branchLen
    rw [← branchPhase_zero_list, ← branchPhase_one_list]
    rfl
  rw [e]
  have h2 : HasDerivAt (fun v : ℝ => 2 * v) 2 v := by simpa using (hasDerivAt_id v).const_mul 2
  have a := (hasDerivAt_listPhase (2 * v) (everyOther l) fun q hq => hl q (mem_everyOther hq)).comp v h2
  have b := (hasDerivAt_listPhase (2 * v) (everyOther l.tail) fun q hq => hl q (List.mem_of_mem_tail (mem_everyOther hq))).comp v h2
  have c := ((a.add b).sub (hasDerivAt_id v)).div_const 2
  refine c.congr_deriv ?_
  ring

/-- Group delay of a stage at 1 kHz, in samples of its higher rate. -/
theorem stage_delay [Sample ℝ] {float : Bool} (hs : Constants float) {k p : ℕ} (hk : k ∈ [2, 4, 8]) (hp : p ∈ [8, 12, 16, 20, 24]) :
    ∃ τ : ℝ, HasDerivAt (fun w => stagePhase p w k) (-(τ / k)) (20 * Real.pi / 441) ∧
      |τ - ((iirGd k p).toRat : ℝ)| ≤ delayTol p / 10 ^ 7 := by
  have hk0 : 0 < k := by
    simp only [List.mem_cons, List.not_mem_nil, or_false] at hk
    omega
  have hk1 : (0 : ℝ) < k := by exact_mod_cast hk0
  obtain ⟨l, hl, hc, e0, hd⟩ : ∃ l : List (ℤ × ℤ), (∀ q ∈ l, |q.1| < q.2) ∧ iirCoefs k p = l.map pairVal ∧ ∃ e0 : ℤ,
      delayCheck (angleIv k).cos l ((iirGd k p).m, (10 ^ (iirGd k p).e : ℕ)) e0 (delayTol p * 10 ^ 33) = true := by
    cases float with
    | false => exact ⟨_, fun q hq => (iirPairs_lt k hk p hp q hq).2, iirCoefs_exact hs, _, (delay_checks k hk p hp).1⟩
    | true => exact ⟨_, fun q hq => (iirPairs32_lt k hk p hp q hq).2, iirCoefs_float hs hk hp, _, (delay_checks k hk p hp).2⟩
  have h1 := (delayCheck_sound (angle_has Iv.has_pi hk0) hl (iirGd_pos k p) hd).2
  rw [pairVal_gd] at h1
  refine ⟨_, ?_, h1.trans (le_of_eq ?_)⟩
  · unfold stagePhase
    rw [hc, List.length_map]
    have h2 : HasDerivAt (fun w : ℝ => w / k) (1 / k) (20 * Real.pi / 441) := (hasDerivAt_id _).div_const _
    have h3 := (hasDerivAt_iirPhase hl (20 * Real.pi / 441 / k)).comp (20 * Real.pi / 441) h2
    refine h3.congr_deriv ?_
    rw [show 2 * (20 * Real.pi / 441 / k) = 40 * Real.pi / (441 * k) by field_simp; norm_num]
    ring
  · push_cast
    norm_num
    ring

theorem delay_checks_8 : ∀ l ∈ [iirPairs 2 8, iirPairs32 2 8],
    (match delayIv (angleIv 2).cos (everyOther l), delayIv (angleIv 2).cos (everyOther l.tail) with
      | some t0, some t1 => decide (2 * (Iv.rat 1749694 1000000).hi + 22 * 10 ^ 37 ≤ t0.lo + t1.lo + Iv.S)
      | _, _ => false) = true := by
  decide +kernel

/-- The group delay of the first stage for 48 dB is larger than the constant. -/
theorem stage_delay_8 [Sample ℝ] {float : Bool} (hs : Constants float) :
    ∃ τ : ℝ, HasDerivAt (fun w => stagePhase 8 w 2) (-(τ / 2)) (20 * Real.pi / 441) ∧ ((iirGd 2 8).toRat : ℝ) + 11 / 1000 ≤ τ := by
  obtain ⟨l, hl, hc, hm⟩ : ∃ l : List (ℤ × ℤ), (∀ q ∈ l, |q.1| < q.2) ∧ iirCoefs 2 8 = l.map pairVal ∧ l ∈ [iirPairs 2 8, iirPairs32 2 8] := by
    cases float with
    | false => exact ⟨_, fun q hq => (iirPairs_lt 2 (by simp) 8 (by simp) q hq).2, iirCoefs_exact hs, by simp⟩
    | true => exact ⟨_, fun q hq => (iirPairs32_lt 2 (by simp) 8 (by simp) q hq).2, iirCoefs_float hs (by simp) (by simp), by simp⟩
  have hd := delay_checks_8 l hm
  have hA := angle_has Iv.has_pi (by norm_num : 0 < 2)
  refine ⟨(listDelay (everyOther l) (Real.cos (40 * Real.pi / (441 * (2 : ℕ)))) +
    listDelay (everyOther l.tail) (Real.cos (40 * Real.pi / (441 * (2 : ℕ)))) + 1) / 2, ?_, ?_⟩
  · unfold stagePhase
    rw [hc, List.length_map]
    have h2 : HasDerivAt (fun w : ℝ => w / (2 : ℕ)) (1 / (2 : ℕ)) (20 * Real.pi / 441) := (hasDerivAt_id _).div_const _
    have h3 := (hasDerivAt_iirPhase hl (20 * Real.pi / 441 / (2 : ℕ))).comp (20 * Real.pi / 441) h2
    refine h3.congr_deriv ?_
    rw [show 2 * (20 * Real.pi / 441 / (2 : ℕ)) = 40 * Real.pi / (441 * (2 : ℕ)) by push_cast; ring]
    push_cast
    ring
  · split at hd
    · rename_i t0 t1 h0 h1
      simp only [decide_eq_true_eq] at hd
      have H0 := delayIv_has hA (fun q hq => hl q (mem_everyOther hq)) h0
      have H1 := delayIv_has hA (fun q hq => hl q (List.mem_of_mem_tail (mem_everyOther hq))) h1
      have hsum := (H0.add H1).add Iv.has_one
      have g : (Iv.rat 1749694 1000000).Has (1749694 / 1000000) := Iv.has_rat (by norm_num) (by norm_num)
      have b := Iv.le_of_has (g.nsmul 2) hsum (e := -(22 * 10 ^ 37)) (by simp only [Iv.add, Iv.nsmul, Iv.one]; push_cast; omega)
      have e : ((iirGd 2 8).toRat : ℝ) = 1749694 / 1000000 := by
        rw [← pairVal_gd]
        norm_num [pairVal, iirGd, iirTable, gd2x8]
      rw [e]
      push_cast at b
      norm_num at b ⊢
      linarith
    · cases hd

/-- Group delay of an IIR resampler at 1 kHz. -/
theorem Config.phase_delay [Sample ℝ] {float : Bool} (hs : Constants float) {cfg : Config} (hv : cfg.Valid) (hf : cfg.filter = .iir) :
    ∃ d : ℝ, HasDerivAt cfg.phase (-d) (20 * Real.pi / 441) ∧
      |d - ((iirKeys cfg.ratio).map fun k => ((iirGd k cfg.precision).toRat : ℝ) / k).sum| ≤
        (1 - 1 / cfg.ratio) * (delayTol cfg.precision / 10 ^ 7) := by
  have hp := cfg.precision_iir hv hf
  have gen : ∀ l : List ℕ, (∀ k ∈ l, k ∈ [2, 4, 8]) →
      ∃ d : ℝ, HasDerivAt (fun w => (l.map fun k => stagePhase cfg.precision w k).sum) (-d) (20 * Real.pi / 441) ∧
        |d - (l.map fun k => ((iirGd k cfg.precision).toRat : ℝ) / k).sum| ≤
          (l.map fun k : ℕ => 1 / (k : ℝ)).sum * (delayTol cfg.precision / 10 ^ 7) := by
    intro l hl
    induction l with
    | nil => exact ⟨0, by simpa using hasDerivAt_const (20 * Real.pi / 441) (0 : ℝ), by simp⟩
    | cons k l ih =>
      obtain ⟨d, h1, h2⟩ := ih fun k hk => hl k (by simp [hk])
      obtain ⟨τ, h3, h4⟩ := stage_delay hs (hl k (by simp)) hp
      have hk0 : (0 : ℝ) < k := by
        have := hl k (by simp)
        simp only [List.mem_cons, List.not_mem_nil, or_false] at this
        have : 0 < k := by omega
        exact_mod_cast this
      refine ⟨τ / k + d, ?_, ?_⟩
      · simp only [List.map_cons, List.sum_cons]
        rw [neg_add]
        exact h3.add h1
      · simp only [List.map_cons, List.sum_cons]
        rw [add_mul, add_sub_add_comm]
        refine (abs_add_le _ _).trans (add_le_add ?_ h2)
        rw [← sub_div, abs_div, abs_of_pos hk0, div_mul_eq_mul_div, one_mul]
        exact div_le_div_of_nonneg_right h4 hk0.le
  obtain ⟨d, h1, h2⟩ := gen (iirKeys cfg.ratio) (by
    intro k hk
    unfold iirKeys at hk
    exact (List.mem_filter.1 hk).1)
  refine ⟨d, h1, h2.trans (le_of_eq ?_)⟩
  congr 1
  have := hv.ratio
  simp only [List.mem_cons, List.not_mem_nil, or_false] at this
  rcases this with h | h | h | h <;> rw [h] <;> norm_num [iirKeys, List.filter]

theorem Config.totalDelay_iir {cfg : Config} (hv : cfg.Valid) (hf : cfg.filter = .iir) :
    (cfg.totalDelay : ℝ) = match cfg.mode with
      | .up => cfg.ratio * ((iirKeys cfg.ratio).map fun k => ((iirGd k cfg.precision).toRat : ℝ) / k).sum
      | .down => ((iirKeys cfg.ratio).map fun k => ((iirGd k cfg.precision).toRat : ℝ) / k).sum - (cfg.ratio - 1) / cfg.ratio := by
  have := hv.ratio
  simp only [List.mem_cons, List.not_mem_nil, or_false] at this
  unfold Config.totalDelay Config.stageDelay
  rw [hf]
  cases cfg.mode <;> rcases this with h | h | h | h <;> rw [h] <;> simp [iirKeys, List.filter, iirGd] <;> ring

end Panda
