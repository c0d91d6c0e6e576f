import Verif.Proofs.Needs

/-!
# What `process_block` of a whole resampler needs
-/

set_option linter.unusedSectionVars false

namespace Panda

variable {F : Type} [Zero F] [One F] [Add F] [Sub F] [Mul F] [Sample F]

/-- A stage for the given direction; FIR filters have at least two coefficients. -/
def Impl.Fits (up : Bool) : Impl F → Prop
  | .firUp u => up = true ∧ 2 ≤ u.order
  | .firDown d => up = false ∧ 2 ≤ d.order
  | .iirUp _ _ => up = true
  | .iirDown _ _ => up = false
  | .iirUpSse _ _ => up = true
  | .iirDownSse _ _ => up = false

theorem Impl.post_up {i : Impl F} (hi : i.Fits true) (bld : Build) (st : Stack F) (input : Buf F) (ioff : Nat) {n : Nat}
    (hn : ∀ u, i = .firUp u → n < 2 ^ 31)
    (output : Buf F) (ooff : Nat) : Rets (i.processBlock bld st input ioff n output ooff) fun q => q.1.Fits true ∧ q.2.len = output.len ∧
      (n = 0 ∨ ioff + n ≤ input.len ∧ ooff + 2 * n ≤ output.len) := by
  unfold Impl.processBlock
  cases i with
  | firUp u => exact post_bind (Up2.post_block hi.2 _ _ (hn _ rfl) _ _) fun q h => post_ok ⟨⟨rfl, h.1 ▸ hi.2⟩, h.2⟩
  | firDown d => exact absurd hi.1 (by simp)
  | iirUp f dl => exact post_bind (FpuFilter.post_up _ _ _ _ _ _ _) fun q h => post_ok ⟨rfl, h⟩
  | iirDown f dl => exact absurd hi (by simp [Impl.Fits])
  | iirUpSse f dl => exact post_bind (SseFilter.post_up _ _ _ _ _ _ _) fun q h => post_ok ⟨rfl, h⟩
  | iirDownSse f dl => exact absurd hi (by simp [Impl.Fits])

theorem Impl.post_down {i : Impl F} (hi : i.Fits false) (bld : Build) (st : Stack F) (input : Buf F) (ioff : Nat) {n : Nat} (he : n % 2 = 0)
    (output : Buf F) (ooff : Nat) : Rets (i.processBlock bld st input ioff n output ooff) fun q => q.1.Fits false ∧ q.2.len = output.len ∧
      (n = 0 ∨ ioff + n ≤ input.len ∧ ooff + n / 2 ≤ output.len) := by
  unfold Impl.processBlock
  cases i with
  | firUp u => exact absurd hi.1 (by simp)
  | firDown d => exact post_bind (Down2.post_block _ hi.2 _ _ he _ _) fun q h => post_ok ⟨⟨rfl, h.1 ▸ hi.2⟩, h.2⟩
  | iirUp f dl => exact absurd hi (by simp [Impl.Fits])
  | iirDown f dl => exact post_bind (FpuFilter.post_down _ _ _ _ _ _ _) fun q h => post_ok ⟨rfl, h.1, by have := h.2; omega⟩
  | iirUpSse f dl => exact absurd hi (by simp [Impl.Fits])
  | iirDownSse f dl => exact post_bind (SseFilter.post_down _ _ _ _ _ _ _) fun q h => post_ok ⟨rfl, h.1, by have := h.2; omega⟩

/-- All stages there are fit. -/
structure Resampler.Fits (r : Resampler F) : Prop where
  x2 : ∀ i, r.implX2 = some i → i.Fits (r.mode == .up)
  x4 : ∀ i, r.implX4 = some i → i.Fits (r.mode == .up)
  x8 : ∀ i, r.implX8 = some i → i.Fits (r.mode == .up)

theorem post_deref (p : Option (Impl F)) : Rets (deref p) fun i => p = some i := by
  intro i h
  cases p with
  | none => cases h
  | some j => cases h; rfl

/-- The factor the loop of `process_block` works with. -/
def Resampler.factor (r : Resampler F) : Nat := if r.ratio = 4 then 4 else 8

theorem Resampler.post_body_up (bld : Build) (st : Stack F) (input : Buf F) (s : RLoop F) (hf : s.r.Fits) (hm : s.r.mode = .up) (h0 : s.n ≠ 0) :
    Rets (Resampler.loopBody bld st input s) fun s' => s'.r.Fits ∧ s'.r.mode = .up ∧ s'.r.ratio = s.r.ratio ∧ s'.output.len = s.output.len ∧
      ∃ k, 0 < k ∧ k ≤ 1024 ∧ k ≤ s.n ∧ s'.n = s.n - k ∧ s'.ioff = s.ioff + k ∧ s'.ooff = s.ooff + u32 (k * s.r.ratio) ∧ s'.ioff ≤ input.len ∧
        s.ooff + k * s.r.factor ≤ s.output.len := by
  obtain ⟨f2, f4, f8⟩ := hf
  have hu : (s.r.mode == .up) = true := by rw [hm]; rfl
  rw [hu] at f2 f4 f8
  unfold Resampler.loopBody Resampler.factor
  simp only [hm]
  split
  · refine post_bind (post_deref _) fun i2 e2 => post_bind (Impl.post_up (f2 _ e2) _ _ _ _ (fun _ _ => by omega) _ _) ?_
    rintro ⟨j2, t2⟩ p2
    refine post_bind (post_deref _) fun i4 e4 => post_bind (Impl.post_up (f4 _ e4) _ _ _ _ (fun _ _ => by omega) _ _) ?_
    rintro ⟨j4, o⟩ p4
    refine post_ok ⟨⟨?_, ?_, ?_⟩, rfl, rfl, p4.2.1, min 1024 s.n, ?_⟩
    · rintro i ⟨⟩
      exact p2.1
    · rintro i ⟨⟩
      exact p4.1
    · simp only
      exact f8
    · have a := p2.2.2
      have b := p4.2.2
      simp only at a b ⊢
      refine ⟨by omega, by omega, by omega, trivial, trivial, trivial, by omega, by omega⟩
  · refine post_bind (post_deref _) fun i2 e2 => post_bind (Impl.post_up (f2 _ e2) _ _ _ _ (fun _ _ => by omega) _ _) ?_
    rintro ⟨j2, t2⟩ p2
    refine post_bind (post_deref _) fun i4 e4 => post_bind (Impl.post_up (f4 _ e4) _ _ _ _ (fun _ _ => by omega) _ _) ?_
    rintro ⟨j4, t4⟩ p4
    refine post_bind (post_deref _) fun i8 e8 => post_bind (Impl.post_up (f8 _ e8) _ _ _ _ (fun _ _ => by omega) _ _) ?_
    rintro ⟨j8, o⟩ p8
    refine post_ok ⟨⟨?_, ?_, ?_⟩, rfl, rfl, p8.2.1, min 1024 s.n, ?_⟩
    · rintro i ⟨⟩
      exact p2.1
    · rintro i ⟨⟩
      exact p4.1
    · rintro i ⟨⟩
      exact p8.1
    · have a := p2.2.2
      have b := p8.2.2
      simp only at a b ⊢
      refine ⟨by omega, by omega, by omega, trivial, trivial, trivial, by omega, by omega⟩

theorem Resampler.post_body_down (bld : Build) (st : Stack F) (input : Buf F) (s : RLoop F) (hf : s.r.Fits) (hm : s.r.mode = .down) (h0 : s.n ≠ 0)
    (he : s.n % s.r.factor = 0) :
    Rets (Resampler.loopBody bld st input s) fun s' => s'.r.Fits ∧ s'.r.mode = .down ∧ s'.r.ratio = s.r.ratio ∧ s'.output.len = s.output.len ∧
      ∃ k, 0 < k ∧ k * s.r.factor ≤ s.n ∧ s'.n = s.n - k * s.r.factor ∧ s'.ioff = s.ioff + k * s.r.factor ∧
        s'.ooff = s.ooff + k * s.r.factor / s.r.ratio ∧ s'.ioff ≤ input.len ∧ s.ooff + k ≤ s.output.len := by
  obtain ⟨f2, f4, f8⟩ := hf
  have hu : (s.r.mode == .up) = false := by rw [hm]; rfl
  rw [hu] at f2 f4 f8
  unfold Resampler.loopBody Resampler.factor at *
  simp only [hm]
  split
  · rename_i h4
    rw [if_pos h4] at he
    refine post_bind (post_deref _) fun i4 e4 => post_bind (Impl.post_down (f4 _ e4) _ _ _ _ (by omega) _ _) ?_
    rintro ⟨j4, t4⟩ p4
    refine post_bind (post_deref _) fun i2 e2 => post_bind (Impl.post_down (f2 _ e2) _ _ _ _ (by omega) _ _) ?_
    rintro ⟨j2, o⟩ p2
    have hk : min 1024 s.n / 4 * 4 = min 1024 s.n := by omega
    refine post_ok ⟨⟨?_, ?_, ?_⟩, rfl, rfl, p2.2.1, min 1024 s.n / 4, ?_⟩
    · rintro i ⟨⟩
      exact p2.1
    · rintro i ⟨⟩
      exact p4.1
    · simp only
      exact f8
    · have a := p4.2.2
      have b := p2.2.2
      simp only [hk] at a b ⊢
      refine ⟨by omega, by omega, trivial, trivial, trivial, by omega, by omega⟩
  · rename_i h4
    rw [if_neg h4] at he
    refine post_bind (post_deref _) fun i8 e8 => post_bind (Impl.post_down (f8 _ e8) _ _ _ _ (by omega) _ _) ?_
    rintro ⟨j8, t8⟩ p8
    refine post_bind (post_deref _) fun i4 e4 => post_bind (Impl.post_down (f4 _ e4) _ _ _ _ (by omega) _ _) ?_
    rintro ⟨j4, t4⟩ p4
    refine post_bind (post_deref _) fun i2 e2 => post_bind (Impl.post_down (f2 _ e2) _ _ _ _ (by omega) _ _) ?_
    rintro ⟨j2, o⟩ p2
    have hk : min 1024 s.n / 8 * 8 = min 1024 s.n := by omega
    refine post_ok ⟨⟨?_, ?_, ?_⟩, rfl, rfl, p2.2.1, min 1024 s.n / 8, ?_⟩
    · rintro i ⟨⟩
      exact p2.1
    · rintro i ⟨⟩
      exact p4.1
    · rintro i ⟨⟩
      exact p8.1
    · have a := p8.2.2
      have b := p2.2.2
      simp only [hk] at a b ⊢
      refine ⟨by omega, by omega, trivial, trivial, trivial, by omega, by omega⟩

/-- If upsampling returns, the buffers are large enough. -/
theorem Resampler.post_up (bld : Build) (st : Stack F) {r : Resampler F} (hf : r.Fits) (hm : r.mode = .up) (hr : r.ratio ∈ [1, 2, 4, 8])
    (input : Buf F) {n : Nat} (hl : r.ratio = 2 → ∀ u, r.implX2 = some (.firUp u) → n < 2 ^ 31) (output : Buf F) :
    Rets (r.processBlock bld st input n output) fun _ => n ≤ input.len ∧ n * r.ratio ≤ output.len := by
  unfold Resampler.processBlock
  have hu : (r.mode == .up) = true := by rw [hm]; rfl
  split
  · rename_i h2
    refine post_bind (post_deref _) fun i2 e2 => ?_
    have := hf.x2 _ e2
    rw [hu] at this
    refine post_bind (Impl.post_up this _ _ _ _ (fun u hu => hl h2 u (hu ▸ e2)) _ _) ?_
    rintro ⟨j, o⟩ p
    refine post_ok ?_
    have := p.2.2
    rw [h2]
    omega
  · split
    · rename_i h1
      refine post_bind (post_copyN _ _ _ _ _) fun o p => post_ok ?_
      rw [h1]
      omega
    · rename_i h2 h1
      have hfac : r.factor = r.ratio := by
        simp only [List.mem_cons, List.not_mem_nil, or_false] at hr
        unfold Resampler.factor
        split <;> omega
      have hle : 4 ≤ r.ratio ∧ r.ratio ≤ 8 := by
        simp only [List.mem_cons, List.not_mem_nil, or_false] at hr
        omega
      refine post_bind (post_whileF (fun s : RLoop F => s.r.Fits ∧ s.r.mode = .up ∧ s.r.ratio = r.ratio ∧ s.output.len = output.len ∧
        s.n ≤ n ∧ s.ioff + s.n = n ∧ s.ooff = s.ioff * r.ratio ∧ (s.n = n ∨ s.ioff ≤ input.len ∧ s.ooff ≤ output.len))
        ⟨hf, hm, rfl, rfl, Nat.le_refl _, by simp, by simp, .inl rfl⟩ ?_) ?_
      · rintro s ⟨a1, a2, a3, a4, a5, a6, a7, -⟩ hc
        refine post_mono (Resampler.post_body_up bld st input s a1 a2 (by simpa using hc)) ?_
        rintro s' ⟨b1, b2, b3, b4, k, b5, b6, b7, b8, b9, b10, b11, b12⟩
        have e : s.r.factor = r.ratio := by
          rw [← hfac]
          unfold Resampler.factor
          rw [a3]
        rw [e, a7, ← Nat.add_mul] at b12
        rw [a3, u32_of_lt (by
          have := Nat.mul_le_mul b6 hle.2
          omega), a7, ← Nat.add_mul] at b10
        rw [b10, b9]
        exact ⟨b1, b2, by omega, by omega, by omega, by omega, rfl, .inr ⟨by omega, by omega⟩⟩
      · rintro s ⟨⟨a1, a2, a3, a4, a5, a6, a7, a8⟩, hc⟩
        have hc : s.n = 0 := by simpa using hc
        refine post_ok ?_
        have : s.ioff = n := by omega
        rw [a7, this] at a8
        rcases a8 with h | h
        · have : n = 0 := by omega
          simp [this]
        · exact h

/-- If downsampling returns, the buffers are large enough. -/
theorem Resampler.post_down (bld : Build) (st : Stack F) {r : Resampler F} (hf : r.Fits) (hm : r.mode = .down) (hr : r.ratio ∈ [1, 2, 4, 8])
    (input : Buf F) {n : Nat} (he : n % r.ratio = 0) (output : Buf F) :
    Rets (r.processBlock bld st input n output) fun _ => n ≤ input.len ∧ n / r.ratio ≤ output.len := by
  unfold Resampler.processBlock
  have hu : (r.mode == .up) = false := by rw [hm]; rfl
  split
  · rename_i h2
    rw [h2] at he
    refine post_bind (post_deref _) fun i2 e2 => ?_
    have := hf.x2 _ e2
    rw [hu] at this
    refine post_bind (Impl.post_down this _ _ _ _ he _ _) ?_
    rintro ⟨j, o⟩ p
    refine post_ok ?_
    have := p.2.2
    rw [h2]
    omega
  · split
    · rename_i h1
      refine post_bind (post_copyN _ _ _ _ _) fun o p => post_ok ?_
      rw [h1, Nat.div_one]
      omega
    · rename_i h2 h1
      have hfac : r.factor = r.ratio := by
        simp only [List.mem_cons, List.not_mem_nil, or_false] at hr
        unfold Resampler.factor
        split <;> omega
      have hpos : 0 < r.ratio := by
        simp only [List.mem_cons, List.not_mem_nil, or_false] at hr
        omega
      refine post_bind (post_whileF (fun s : RLoop F => s.r.Fits ∧ s.r.mode = .down ∧ s.r.ratio = r.ratio ∧ s.output.len = output.len ∧
        s.n ≤ n ∧ s.ioff + s.n = n ∧ s.ioff = s.ooff * r.ratio ∧ (s.n = n ∨ s.ioff ≤ input.len ∧ s.ooff ≤ output.len))
        ⟨hf, hm, rfl, rfl, Nat.le_refl _, by simp, by simp, .inl rfl⟩ ?_) ?_
      · rintro s ⟨a1, a2, a3, a4, a5, a6, a7, -⟩ hc
        have e : s.r.factor = r.ratio := by
          rw [← hfac]
          unfold Resampler.factor
          rw [a3]
        refine post_mono (Resampler.post_body_down bld st input s a1 a2 (by simpa using hc) ?_) ?_
        · rw [e]
          rw [← a6, a7, Nat.mul_add_mod_self_right] at he
          exact he
        · rintro s' ⟨b1, b2, b3, b4, k, b5, b6, b7, b8, b9, b10, b11⟩
          rw [e] at b6 b7 b8 b9
          rw [a3, Nat.mul_div_cancel _ hpos] at b9
          rw [a7, ← Nat.add_mul, ← b9] at b8
          exact ⟨b1, b2, by omega, by omega, by omega, by
            rw [b8, b9, Nat.add_mul, ← a7, b7]
            omega, b8, .inr ⟨by omega, by omega⟩⟩
      · rintro s ⟨⟨a1, a2, a3, a4, a5, a6, a7, a8⟩, hc⟩
        have hc : s.n = 0 := by simpa using hc
        refine post_ok ?_
        have : n = s.ooff * r.ratio := by omega
        rw [this, Nat.mul_div_cancel _ hpos, ← a7]
        rcases a8 with h | h
        · have : n = 0 := by omega
          have : s.ooff * r.ratio = 0 := by omega
          have : s.ooff = 0 := by
            rcases Nat.mul_eq_zero.1 this with h | h <;> omega
          omega
        · exact h

theorem ImplShape.fits {cfg : Config} {i : Impl F} (h : ImplShape cfg i) : i.Fits (cfg.mode == .up) := by
  cases h with
  | firUp u _ hm hw => rw [hm]; exact ⟨rfl, hw.order_ge⟩
  | firDown d _ hm hw => rw [hm]; exact ⟨rfl, hw.order_ge⟩
  | iirUp _ _ _ hm => rw [hm]; rfl
  | iirDown _ _ _ hm => rw [hm]; rfl
  | iirUpSse _ _ _ hm => rw [hm]; rfl
  | iirDownSse _ _ _ hm => rw [hm]; rfl

theorem ChainInv.fits {cfg : Config} {ss : List (Stage F)} {is : List (Option (Impl F))} {xs zs : List F} (h : ChainInv ss is xs zs)
    (hs : ∀ s ∈ ss, StageShape cfg s) : ∀ p ∈ is, ∀ i, p = some i → i.Fits (cfg.mode == .up) := by
  induction ss generalizing is xs with
  | nil =>
    cases is with
    | nil => intro p hp; cases hp
    | cons => exact h.elim
  | cons s ss ih =>
    cases is with
    | nil => exact h.elim
    | cons i is =>
      cases i with
      | none => exact h.elim
      | some i =>
        obtain ⟨ys, h1, -, h3⟩ := h
        intro p hp j hj
        rcases List.mem_cons.1 hp with rfl | hp
        · cases hj
          exact (implShape_of (hs _ (by simp)) h1).fits
        · exact ih h3 (fun s m => hs s (by simp [m])) p hp j hj

/-- Every resampler in use is fit. -/
theorem Config.Reachable.fits {cfg : Config} (hv : cfg.Valid) {r : Resampler F} (h : cfg.Reachable r) : r.Fits := by
  have hrr := h.ratio hv
  have hmm := h.mode hv
  obtain ⟨r0, xs, zs, -, h0, h⟩ := h.state hv
  have key := h.inv.fits (cfg := cfg) fun s m => (stages_shape m).2
  rw [← hmm] at key
  have hev := h.evolves
  have hr := hv.ratio
  have none_of : ∀ {p q : Option (Impl F)}, p = none → OptEvolves p q → q = none := by
    rintro p q rfl h
    cases q with
    | none => rfl
    | some _ => exact h.elim
  have m2 : ∀ i, r.implX2 = some i → i.Fits (r.mode == .up) := by
    intro i hi
    by_cases h2 : 2 ≤ cfg.ratio
    · refine key _ ?_ i hi
      unfold Resampler.path
      rw [hrr]
      cases r.mode <;> simp only <;> repeat' split
      all_goals first | omega | simp
    · have := h0.x2
      rw [if_neg h2] at this
      rw [none_of this hev.x2] at hi
      cases hi
  have m4 : ∀ i, r.implX4 = some i → i.Fits (r.mode == .up) := by
    intro i hi
    by_cases h2 : 4 ≤ cfg.ratio
    · refine key _ ?_ i hi
      unfold Resampler.path
      rw [hrr]
      cases r.mode <;> simp only <;> repeat' split
      all_goals first | omega | simp
    · have := h0.x4
      rw [if_neg h2] at this
      rw [none_of this hev.x4] at hi
      cases hi
  have m8 : ∀ i, r.implX8 = some i → i.Fits (r.mode == .up) := by
    intro i hi
    by_cases h2 : 8 ≤ cfg.ratio
    · refine key _ ?_ i hi
      unfold Resampler.path
      rw [hrr]
      cases r.mode <;> simp only <;> repeat' split
      all_goals first | omega | simp
    · have := h0.x8
      rw [if_neg h2] at this
      rw [none_of this hev.x8] at hi
      cases hi
  exact ⟨m2, m4, m8⟩

end Panda
