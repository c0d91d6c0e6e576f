import Verif.Model.InPlace
import Verif.Proofs.Iir

/-!
# Overlapping buffers and band splitting: simulation of the loops
-/

set_option linter.unusedSectionVars false

namespace Panda

variable {F : Type} [Zero F] [One F] [Add F] [Sub F] [Mul F] [Sample F]

/-- Two loops in lockstep. -/
theorem forN_sim {σ τ : Type} {f : Nat → σ → Res σ} {g : Nat → τ → Res τ} (R : Nat → σ → τ → Prop) {n : Nat}
    (hstep : ∀ k < n, ∀ s s' t, R k s t → f k s = .ok s' → ∃ t', g k t = .ok t' ∧ R (k + 1) s' t') {s s' : σ} {t : τ}
    (h0 : R 0 s t) (h : forN f n s = .ok s') : ∃ t', forN g n t = .ok t' ∧ R n s' t' := by
  induction n generalizing s' with
  | zero =>
    obtain rfl : s = s' := by simpa [forN] using h
    exact ⟨t, rfl, h0⟩
  | succ n ih =>
    unfold forN at h ⊢
    cases hs : forN f n s with
    | error e => rw [hs] at h; simp at h
    | ok s1 =>
      obtain ⟨t1, h1, h2⟩ := ih (fun k hk => hstep k (by omega)) hs
      rw [hs, ok_bind] at h
      obtain ⟨t2, h3, h4⟩ := hstep n (by omega) s1 s' t1 h2 h
      exact ⟨t2, by rw [h1, ok_bind, h3], h4⟩

theorem forN_sim_pair {σ α β : Type} {f : Nat → σ → Res σ} {g : Nat → α × β → Res (α × β)} (R : Nat → σ → α × β → Prop) {n : Nat}
    (hstep : ∀ k < n, ∀ s s' t, R k s t → f k s = .ok s' → ∃ t', g k t = .ok t' ∧ R (k + 1) s' t') {s s' : σ} {t : α × β}
    (h0 : R 0 s t) (h : forN f n s = .ok s') {a : α} {A : β → Prop} (hk : ∀ t', R n s' t' → t'.1 = a ∧ A t'.2) :
    ∃ b, forN g n t = .ok (a, b) ∧ A b := by
  obtain ⟨⟨a', b⟩, e, hR⟩ := forN_sim R hstep h0 h
  obtain ⟨h1, h2⟩ := hk _ hR
  simp only at h1 h2
  subst h1
  exact ⟨b, e, h2⟩

theorem forN_sim_pair' {σ α β : Type} {f : Nat → σ → Res σ} {g : Nat → α × β → Res (α × β)} (R : Nat → σ → α × β → Prop) {n : Nat}
    (hstep : ∀ k < n, ∀ s s' t, R k s t → f k s = .ok s' → ∃ t', g k t = .ok t' ∧ R (k + 1) s' t') {s s' : σ} {t : α × β}
    (h0 : R 0 s t) (h : forN f n s = .ok s') {A : α → β → Prop} (hk : ∀ t', R n s' t' → A t'.1 t'.2) :
    ∃ a b, forN g n t = .ok (a, b) ∧ A a b := by
  obtain ⟨⟨a', b⟩, e, hR⟩ := forN_sim R hstep h0 h
  exact ⟨a', b, e, hk _ hR⟩

theorem forN_sim_triple {σ α β γ : Type} {f : Nat → σ → Res σ} {g : Nat → α × β × γ → Res (α × β × γ)}
    (R : Nat → σ → α × β × γ → Prop) {n : Nat}
    (hstep : ∀ k < n, ∀ s s' t, R k s t → f k s = .ok s' → ∃ t', g k t = .ok t' ∧ R (k + 1) s' t') {s s' : σ} {t : α × β × γ}
    (h0 : R 0 s t) (h : forN f n s = .ok s') {a : α} {A : β → γ → Prop} (hk : ∀ t', R n s' t' → t'.1 = a ∧ A t'.2.1 t'.2.2) :
    ∃ b c, forN g n t = .ok (a, b, c) ∧ A b c := by
  obtain ⟨⟨a', b, c⟩, e, hR⟩ := forN_sim R hstep h0 h
  obtain ⟨h1, h2⟩ := hk _ hR
  simp only at h1 h2
  subst h1
  exact ⟨b, c, e, h2⟩

theorem bind_ok {α β : Type} {r : Res α} {f : α → Res β} {b : β} (h : (r >>= f) = .ok b) : ∃ a, r = .ok a ∧ f a = .ok b := by
  cases r with
  | error e => simp at h
  | ok a => exact ⟨a, rfl, h⟩

omit [Zero F] [One F] [Add F] [Sub F] [Mul F] [Sample F] in
theorem rd_ok {α : Type} {b : Buf α} {i : Nat} {v : α} (h : b.rd i = .ok v) : i < b.len ∧ b.get i = v := by
  unfold Buf.rd at h
  split at h
  · exact ⟨by assumption, by simpa using h⟩
  · simp at h

omit [Zero F] [One F] [Add F] [Sub F] [Mul F] [Sample F] in
theorem wr_ok {α : Type} {b b' : Buf α} {i : Nat} {v : α} (h : b.wr i v = .ok b') : i < b.len ∧ b' = b.upd i v := by
  unfold Buf.wr at h
  split at h
  · exact ⟨by assumption, by simpa using h.symm⟩
  · simp at h

theorem assert_ok {bld : Build} {b : Bool} {u : Unit} (h : bld.assert b = .ok u) : bld.ndebug = true ∨ b = true := by
  unfold Build.assert at h
  by_cases hb : (bld.ndebug || b) = true
  · simpa using hb
  · rw [if_neg hb] at h; simp at h

theorem assert_of {bld : Build} {b : Bool} (h : b = true) : bld.assert b = .ok () := by
  unfold Build.assert
  rw [h, Bool.or_true, if_pos rfl]
  rfl

/-! ## Splitting -/

/-- FPU: `process_block_split` and `process_block` side by side. -/
theorem FpuFilter.split_sim {bld : Build} {f f' : FpuFilter F} {input o o' outL outH : Buf F} {ioff n ooff loff hoff : Nat} (hn : 0 < n)
    (hl : loff + n ≤ outL.len) (hh : hoff + n ≤ outH.len) (h : f.downBlock bld input ioff n o ooff = .ok (f', o')) :
    ∃ l u, f.splitBlock bld input ioff n outL loff outH hoff = .ok (f', l, u) ∧ l.len = outL.len ∧ u.len = outH.len ∧
      (∀ i < n, ∃ s0 s1, o'.get (ooff + i) = Sample.half * (s0 + s1) ∧ l.get (loff + i) = (s0 + s1) * Sample.half ∧
        u.get (hoff + i) = s0 - l.get (loff + i)) ∧
      (∀ j, j < loff ∨ loff + n ≤ j → l.get j = outL.get j) ∧ ∀ j, j < hoff ∨ hoff + n ≤ j → u.get j = outH.get j := by
  unfold FpuFilter.downBlock at h
  unfold FpuFilter.splitBlock
  obtain ⟨u, h1, h⟩ := bind_ok h
  rw [h1, ok_bind]
  unfold doWhileN at h ⊢
  rw [show max n 1 = n by omega] at h ⊢
  refine forN_sim_triple (fun k (s : FpuFilter F × Buf F) (t : FpuFilter F × Buf F × Buf F) =>
      t.1 = s.1 ∧ t.2.1.len = outL.len ∧ t.2.2.len = outH.len ∧
      (∀ i < k, ∃ s0 s1, s.2.get (ooff + i) = Sample.half * (s0 + s1) ∧ t.2.1.get (loff + i) = (s0 + s1) * Sample.half ∧
        t.2.2.get (hoff + i) = s0 - t.2.1.get (loff + i)) ∧
      (∀ j, j < loff ∨ loff + k ≤ j → t.2.1.get j = outL.get j) ∧ ∀ j, j < hoff ∨ hoff + k ≤ j → t.2.2.get j = outH.get j)
    ?_ ⟨rfl, rfl, rfl, by intro i hi; omega, fun _ _ => rfl, fun _ _ => rfl⟩ h ?_
  · rintro k hk ⟨g, b⟩ ⟨g', b'⟩ ⟨t, l, u⟩ ⟨h1, h2, h3, h4, h5, h6⟩ hs
    simp only at h1 h2 h3 h4 h5 h6 hs ⊢
    subst h1
    obtain ⟨in1, r1, hs⟩ := bind_ok hs
    obtain ⟨in0, r0, hs⟩ := bind_ok hs
    rw [r1, ok_bind, r0, ok_bind]
    unfold FpuFilter.downSample at hs
    unfold FpuFilter.splitSample
    obtain ⟨⟨v, g2⟩, hs1, hs⟩ := bind_ok hs
    obtain ⟨⟨s0, s1, mm⟩, hp, hs1⟩ := bind_ok hs1
    simp only [pure_eq_ok, Except.ok.injEq, Prod.mk.injEq] at hs1
    obtain ⟨b2, hw, hs⟩ := bind_ok hs
    simp only [pure_eq_ok, Except.ok.injEq, Prod.mk.injEq] at hs
    obtain ⟨w1, w2⟩ := wr_ok hw
    rw [hp, ok_bind]
    simp only [pure_eq_ok, ok_bind]
    rw [Buf.wr_eq _ (by omega), ok_bind, Buf.wr_eq _ (by omega), ok_bind]
    refine ⟨_, rfl, hs1.2.trans hs.1, h2, h3, ?_, ?_, ?_⟩
    · intro i hi
      simp only [Buf.upd_get, ← hs.2, w2]
      by_cases hik : i = k
      · subst hik
        rw [if_pos rfl, if_pos rfl, if_pos rfl]
        exact ⟨s0, s1, hs1.1.symm, rfl, rfl⟩
      · rw [if_neg (by omega), if_neg (by omega), if_neg (by omega)]
        exact h4 i (by omega)
    · intro j hj
      simp only [Buf.upd_get]
      rw [if_neg (by omega)]
      exact h5 j (by omega)
    · intro j hj
      simp only [Buf.upd_get]
      rw [if_neg (by omega)]
      exact h6 j (by omega)
  · exact fun t hR => hR

/-- SSE: `process_block_split` and `process_block` side by side. -/
theorem SseFilter.split_sim {bld : Build} {f f' : SseFilter F} {input o o' outL outH : Buf F} {ioff n ooff loff hoff : Nat}
    (hl : loff + n ≤ outL.len) (hh : hoff + n ≤ outH.len) (h : f.downBlock bld input ioff n o ooff = .ok (f', o')) :
    ∃ l u, f.splitBlock bld input ioff n outL loff outH hoff = .ok (f', l, u) ∧ l.len = outL.len ∧ u.len = outH.len ∧
      (∀ i < n, ∃ s0 s1, o'.get (ooff + i) = (s0 + s1) * Sample.half ∧
        l.get (loff + i) = s1 * Sample.half + s0 * Sample.half ∧ u.get (hoff + i) = s1 * Sample.half - s0 * Sample.half) ∧
      (∀ j, j < loff ∨ loff + n ≤ j → l.get j = outL.get j) ∧ ∀ j, j < hoff ∨ hoff + n ≤ j → u.get j = outH.get j := by
  unfold SseFilter.downBlock at h
  unfold SseFilter.splitBlock
  obtain ⟨u, h1, h⟩ := bind_ok h
  rw [h1, ok_bind]
  refine forN_sim_triple (fun k (s : SseFilter F × Buf F) (t : SseFilter F × Buf F × Buf F) =>
      t.1 = s.1 ∧ t.2.1.len = outL.len ∧ t.2.2.len = outH.len ∧
      (∀ i < k, ∃ s0 s1, s.2.get (ooff + i) = (s0 + s1) * Sample.half ∧
        t.2.1.get (loff + i) = s1 * Sample.half + s0 * Sample.half ∧ t.2.2.get (hoff + i) = s1 * Sample.half - s0 * Sample.half) ∧
      (∀ j, j < loff ∨ loff + k ≤ j → t.2.1.get j = outL.get j) ∧ ∀ j, j < hoff ∨ hoff + k ≤ j → t.2.2.get j = outH.get j)
    ?_ ⟨rfl, rfl, rfl, by intro i hi; omega, fun _ _ => rfl, fun _ _ => rfl⟩ h ?_
  · rintro k hk ⟨g, b⟩ ⟨g', b'⟩ ⟨t, l, u⟩ ⟨h1, h2, h3, h4, h5, h6⟩ hs
    simp only at h1 h2 h3 h4 h5 h6 hs ⊢
    subst h1
    obtain ⟨x, r1, hs⟩ := bind_ok hs
    rw [r1, ok_bind]
    obtain ⟨⟨y, mm⟩, hp, hs⟩ := bind_ok hs
    obtain ⟨b2, hw, hs⟩ := bind_ok hs
    simp only [pure_eq_ok, Except.ok.injEq, Prod.mk.injEq] at hs
    obtain ⟨w1, w2⟩ := wr_ok hw
    rw [hp, ok_bind]
    simp only
    rw [Buf.wr_eq _ (by omega), ok_bind, Buf.wr_eq _ (by omega), ok_bind]
    refine ⟨_, rfl, hs.1, h2, h3, ?_, ?_, ?_⟩
    · intro i hi
      simp only [Buf.upd_get, ← hs.2, w2]
      by_cases hik : i = k
      · subst hik
        rw [if_pos rfl, if_pos rfl, if_pos rfl]
        exact ⟨y.x0, y.x1, rfl, rfl, rfl⟩
      · rw [if_neg (by omega), if_neg (by omega), if_neg (by omega)]
        exact h4 i (by omega)
    · intro j hj
      simp only [Buf.upd_get]
      rw [if_neg (by omega)]
      exact h5 j (by omega)
    · intro j hj
      simp only [Buf.upd_get]
      rw [if_neg (by omega)]
      exact h6 j (by omega)
  · exact fun t hR => hR

/-! ## Overlap -/

/-- FPU upsampler. -/
theorem FpuFilter.up_overlap {bld : Build} {f f' : FpuFilter F} {m o o' : Buf F} {ioff n ooff ooff' : Nat} (hn : 0 < n)
    (hov : ioff + n ≤ ooff ∨ ooff + n ≤ ioff) (hlen : ooff + 2 * n ≤ m.len) (h : f.upBlock bld m ioff n o ooff' = .ok (f', o')) :
    ∃ m', f.upBlockMem bld m ioff n ooff = .ok (f', m') ∧ m'.len = m.len ∧ m'.addr = m.addr ∧
      (∀ i < 2 * n, m'.get (ooff + i) = o'.get (ooff' + i)) ∧ ∀ j, j < ooff ∨ ooff + 2 * n ≤ j → m'.get j = m.get j := by
  unfold FpuFilter.upBlock at h
  unfold FpuFilter.upBlockMem
  obtain ⟨u, h1, h⟩ := bind_ok h
  rw [assert_of (by simpa using hov), ok_bind, h1, ok_bind]
  unfold doWhileN at h ⊢
  rw [show max n 1 = n by omega] at h ⊢
  refine forN_sim_pair (s := (f, o)) (t := (f, m)) (fun k (s t : FpuFilter F × Buf F) =>
      t.1 = s.1 ∧ t.2.len = m.len ∧ t.2.addr = m.addr ∧ (∀ i < 2 * k, t.2.get (ooff + i) = s.2.get (ooff' + i)) ∧
      ∀ j, j < ooff ∨ ooff + 2 * k ≤ j → t.2.get j = m.get j)
    ?_ ⟨rfl, rfl, rfl, by intro i hi; omega, fun _ _ => rfl⟩ h ?_
  · rintro k hk ⟨g, b⟩ ⟨g', b'⟩ ⟨t, l⟩ ⟨h1, h2, h3, h4, h5⟩ hs
    simp only at h1 h2 h3 h4 h5 hs ⊢
    subst h1
    obtain ⟨v, r1, hs⟩ := bind_ok hs
    obtain ⟨q1, q2⟩ := rd_ok r1
    rw [Buf.rd_eq (by omega), ok_bind, h5 _ (by omega), q2]
    obtain ⟨⟨o0, o1, g2⟩, hp, hs⟩ := bind_ok hs
    rw [hp, ok_bind]
    obtain ⟨b2, hw, hs⟩ := bind_ok hs
    obtain ⟨b3, hw', hs⟩ := bind_ok hs
    simp only [pure_eq_ok, Except.ok.injEq, Prod.mk.injEq] at hs
    obtain ⟨w1, w2⟩ := wr_ok hw
    obtain ⟨w3, w4⟩ := wr_ok hw'
    simp only
    rw [Buf.wr_eq _ (by omega), ok_bind, Buf.wr_eq _ (by simp only [Buf.upd_len]; omega), ok_bind]
    refine ⟨_, rfl, hs.1, h2, h3, ?_, ?_⟩
    · intro i hi
      simp only [Buf.upd_get, ← hs.2, w4, w2]
      by_cases hik : i = 2 * k + 1
      · rw [if_pos (by omega), if_pos (by omega)]
      · by_cases hik' : i = 2 * k
        · rw [if_neg (by omega), if_pos (by omega), if_neg (by omega), if_pos (by omega)]
        · rw [if_neg (by omega), if_neg (by omega), if_neg (by omega), if_neg (by omega)]
          exact h4 i (by omega)
    · intro j hj
      simp only [Buf.upd_get]
      rw [if_neg (by omega), if_neg (by omega)]
      exact h5 j (by omega)
  · exact fun t hR => hR

/-- FPU downsampler. -/
theorem FpuFilter.down_overlap {bld : Build} {f f' : FpuFilter F} {m o o' : Buf F} {ioff n ooff ooff' : Nat} (hn : 0 < n)
    (hov : ooff ≤ ioff ∨ ioff + n * 2 ≤ ooff) (hlen : ooff + n ≤ m.len) (h : f.downBlock bld m ioff n o ooff' = .ok (f', o')) :
    ∃ m', f.downBlockMem bld m ioff n ooff = .ok (f', m') ∧ m'.len = m.len ∧ m'.addr = m.addr ∧
      (∀ i < n, m'.get (ooff + i) = o'.get (ooff' + i)) ∧ ∀ j, j < ooff ∨ ooff + n ≤ j → m'.get j = m.get j := by
  unfold FpuFilter.downBlock at h
  unfold FpuFilter.downBlockMem
  obtain ⟨u, h1, h⟩ := bind_ok h
  rw [assert_of (by simpa using hov), ok_bind, h1, ok_bind]
  unfold doWhileN at h ⊢
  rw [show max n 1 = n by omega] at h ⊢
  refine forN_sim_pair (s := (f, o)) (t := (f, m)) (fun k (s t : FpuFilter F × Buf F) =>
      t.1 = s.1 ∧ t.2.len = m.len ∧ t.2.addr = m.addr ∧ (∀ i < k, t.2.get (ooff + i) = s.2.get (ooff' + i)) ∧
      ∀ j, j < ooff ∨ ooff + k ≤ j → t.2.get j = m.get j)
    ?_ ⟨rfl, rfl, rfl, by intro i hi; omega, fun _ _ => rfl⟩ h ?_
  · rintro k hk ⟨g, b⟩ ⟨g', b'⟩ ⟨t, l⟩ ⟨h1, h2, h3, h4, h5⟩ hs
    simp only at h1 h2 h3 h4 h5 hs ⊢
    subst h1
    obtain ⟨v1, r1, hs⟩ := bind_ok hs
    obtain ⟨v0, r0, hs⟩ := bind_ok hs
    obtain ⟨q1, q2⟩ := rd_ok r1
    obtain ⟨q3, q4⟩ := rd_ok r0
    rw [Buf.rd_eq (by omega), ok_bind, h5 _ (by omega), q2, Buf.rd_eq (by omega), ok_bind, h5 _ (by omega), q4]
    obtain ⟨⟨v, g2⟩, hp, hs⟩ := bind_ok hs
    rw [hp, ok_bind]
    obtain ⟨b2, hw, hs⟩ := bind_ok hs
    simp only [pure_eq_ok, Except.ok.injEq, Prod.mk.injEq] at hs
    obtain ⟨w1, w2⟩ := wr_ok hw
    simp only
    rw [Buf.wr_eq _ (by omega), ok_bind]
    refine ⟨_, rfl, hs.1, h2, h3, ?_, ?_⟩
    · intro i hi
      simp only [Buf.upd_get, ← hs.2, w2]
      by_cases hik : i = k
      · rw [if_pos (by omega), if_pos (by omega)]
      · rw [if_neg (by omega), if_neg (by omega)]
        exact h4 i (by omega)
    · intro j hj
      simp only [Buf.upd_get]
      rw [if_neg (by omega)]
      exact h5 j (by omega)
  · exact fun t hR => hR

/-- FPU splitter; the two outputs do not overlap each other. -/
theorem FpuFilter.split_overlap {bld : Build} {f f' : FpuFilter F} {m outL outH l u : Buf F} {ioff n loff hoff loff' hoff' : Nat}
    (hn : 0 < n) (hovl : loff ≤ ioff ∨ ioff + n * 2 ≤ loff) (hovh : hoff ≤ ioff ∨ ioff + n * 2 ≤ hoff)
    (hdis : loff + n ≤ hoff ∨ hoff + n ≤ loff) (hlen : loff + n ≤ m.len) (hlen' : hoff + n ≤ m.len)
    (h : f.splitBlock bld m ioff n outL loff' outH hoff' = .ok (f', l, u)) :
    ∃ m', f.splitBlockMem bld m ioff n loff hoff = .ok (f', m') ∧ m'.len = m.len ∧ m'.addr = m.addr ∧
      (∀ i < n, m'.get (loff + i) = l.get (loff' + i) ∧ m'.get (hoff + i) = u.get (hoff' + i)) ∧
      ∀ j, (j < loff ∨ loff + n ≤ j) → (j < hoff ∨ hoff + n ≤ j) → m'.get j = m.get j := by
  unfold FpuFilter.splitBlock at h
  unfold FpuFilter.splitBlockMem
  obtain ⟨_, h1, h⟩ := bind_ok h
  rw [assert_of (by simpa using hovl), ok_bind, assert_of (by simpa using hovh), ok_bind,
    assert_of (by simp only [ne_eq, decide_not, Bool.not_eq_true', decide_eq_false_iff_not]; omega), ok_bind, h1, ok_bind]
  unfold doWhileN at h ⊢
  rw [show max n 1 = n by omega] at h ⊢
  refine forN_sim_pair (fun k (s : FpuFilter F × Buf F × Buf F) (t : FpuFilter F × Buf F) =>
      t.1 = s.1 ∧ t.2.len = m.len ∧ t.2.addr = m.addr ∧
      (∀ i < k, t.2.get (loff + i) = s.2.1.get (loff' + i) ∧ t.2.get (hoff + i) = s.2.2.get (hoff' + i)) ∧
      ∀ j, (j < loff ∨ loff + k ≤ j) → (j < hoff ∨ hoff + k ≤ j) → t.2.get j = m.get j)
    ?_ ⟨rfl, rfl, rfl, by intro i hi; omega, fun _ _ _ => rfl⟩ h ?_
  · rintro k hk ⟨g, b, c⟩ ⟨g', b', c'⟩ ⟨t, l⟩ ⟨h1, h2, h3, h4, h5⟩ hs
    simp only at h1 h2 h3 h4 h5 hs ⊢
    subst h1
    obtain ⟨v1, r1, hs⟩ := bind_ok hs
    obtain ⟨v0, r0, hs⟩ := bind_ok hs
    obtain ⟨q1, q2⟩ := rd_ok r1
    obtain ⟨q3, q4⟩ := rd_ok r0
    rw [Buf.rd_eq (by omega), ok_bind, h5 _ (by omega) (by omega), q2, Buf.rd_eq (by omega), ok_bind, h5 _ (by omega) (by omega), q4]
    obtain ⟨⟨a0, a1, g2⟩, hp, hs⟩ := bind_ok hs
    rw [hp, ok_bind]
    obtain ⟨b2, hw, hs⟩ := bind_ok hs
    obtain ⟨c2, hw', hs⟩ := bind_ok hs
    simp only [pure_eq_ok, Except.ok.injEq, Prod.mk.injEq] at hs
    obtain ⟨w1, w2⟩ := wr_ok hw
    obtain ⟨w3, w4⟩ := wr_ok hw'
    simp only
    rw [Buf.wr_eq _ (by omega), ok_bind, Buf.wr_eq _ (by simp only [Buf.upd_len]; omega), ok_bind]
    refine ⟨_, rfl, hs.1, h2, h3, ?_, ?_⟩
    · intro i hi
      simp only [Buf.upd_get, ← hs.2.1, ← hs.2.2, w2, w4]
      by_cases hik : i = k
      · rw [if_neg (by omega), if_pos (by omega), if_pos (by omega), if_pos (by omega), if_pos (by omega)]
        exact ⟨rfl, rfl⟩
      · rw [if_neg (by omega), if_neg (by omega), if_neg (by omega), if_neg (by omega), if_neg (by omega), if_neg (by omega)]
        exact h4 i (by omega)
    · intro j hj hj'
      simp only [Buf.upd_get]
      rw [if_neg (by omega), if_neg (by omega)]
      exact h5 j (by omega) (by omega)
  · exact fun t hR => hR

/-! SSE: the vector loads of the downsampler also read two samples that may have been overwritten already. They only affect
lanes 2 and 3 of the filter memory. -/

/-- Equal in lanes 0 and 1. -/
def V4.Low (a b : V4 F) : Prop := a.x0 = b.x0 ∧ a.x1 = b.x1

/-- Filter memories equal in lanes 0 and 1. -/
def LowMem (a b : Buf (V4 F)) : Prop := a.len = b.len ∧ a.addr = b.addr ∧ ∀ i, (a.get i).Low (b.get i)

/-- Filters equal except for lanes 2 and 3 of the memory (which are never used). -/
def SseFilter.Low (f g : SseFilter F) : Prop := f.nbrCoefs = g.nbrCoefs ∧ f.addr = g.addr ∧ f.coef = g.coef ∧ LowMem f.mem g.mem

theorem ldStage_low {addr i : Nat} {a b : Buf (V4 F)} {v : V4 F} (h : LowMem a b) (hv : ldStage addr a i = .ok v) :
    ∃ w, ldStage addr b i = .ok w ∧ v.Low w := by
  unfold ldStage at hv ⊢
  split at hv
  · obtain ⟨h1, h2⟩ := rd_ok hv
    rw [if_pos (by assumption), Buf.rd_eq (by rw [← h.1]; exact h1)]
    exact ⟨_, rfl, h2 ▸ h.2.2 i⟩
  · simp at hv

theorem stStage_low {addr i : Nat} {a b a' : Buf (V4 F)} {v w : V4 F} (h : LowMem a b) (hvw : v.Low w)
    (hv : stStage addr a i v = .ok a') : ∃ b', stStage addr b i w = .ok b' ∧ LowMem a' b' := by
  unfold stStage at hv ⊢
  split at hv
  · obtain ⟨h1, h2⟩ := wr_ok hv
    rw [if_pos (by assumption), Buf.wr_eq _ (by rw [← h.1]; exact h1)]
    refine ⟨_, rfl, ?_, ?_, ?_⟩
    · rw [h2]; exact h.1
    · rw [h2]; exact h.2.1
    · intro j
      rw [h2]
      simp only [Buf.upd_get]
      split
      · exact hvw
      · exact h.2.2 j
  · simp at hv

theorem stageProcSsePosRec_low {addr cur : Nat} {coef a b a' : Buf (V4 F)} {x x' y : V4 F} (h : LowMem a b) (hxy : x.Low y)
    (hv : stageProcSsePosRec addr coef cur x a = .ok (x', a')) :
    ∃ y' b', stageProcSsePosRec addr coef cur y b = .ok (y', b') ∧ x'.Low y' ∧ LowMem a' b' := by
  induction cur generalizing x' a' with
  | zero =>
    simp only [stageProcSsePosRec, pure_eq_ok, Except.ok.injEq, Prod.mk.injEq] at hv
    exact ⟨y, b, rfl, hv.1 ▸ hxy, hv.2 ▸ h⟩
  | succ cur ih =>
    unfold stageProcSsePosRec at hv ⊢
    obtain ⟨⟨x1, a1⟩, e1, hv⟩ := bind_ok hv
    obtain ⟨y1, b1, f1, l1, m1⟩ := ih e1
    rw [f1, ok_bind]
    simp only at hv ⊢
    obtain ⟨t, e2, hv⟩ := bind_ok hv
    obtain ⟨t', f2, l2⟩ := ldStage_low m1 e2
    rw [f2, ok_bind]
    obtain ⟨a2, e3, hv⟩ := bind_ok hv
    obtain ⟨b2, f3, m2⟩ := stStage_low m1 l1 e3
    rw [f3, ok_bind]
    obtain ⟨z, e4, hv⟩ := bind_ok hv
    obtain ⟨z', f4, l4⟩ := ldStage_low m2 e4
    rw [f4, ok_bind]
    obtain ⟨c, e5, hv⟩ := bind_ok hv
    rw [e5, ok_bind]
    simp only [pure_eq_ok, Except.ok.injEq, Prod.mk.injEq] at hv
    refine ⟨_, _, rfl, ?_, hv.2 ▸ m2⟩
    rw [← hv.1]
    unfold V4.stage V4.Low
    simp only
    rw [l1.1, l1.2, l2.1, l2.2, l4.1, l4.2]
    exact ⟨rfl, rfl⟩

theorem stageProcSsePos_low {addr cur : Nat} {coef a b a' : Buf (V4 F)} {x x' y : V4 F} (h : LowMem a b) (hxy : x.Low y)
    (hv : stageProcSsePos addr coef cur x a = .ok (x', a')) :
    ∃ y' b', stageProcSsePos addr coef cur y b = .ok (y', b') ∧ x'.Low y' ∧ LowMem a' b' := by
  unfold stageProcSsePos at hv ⊢
  obtain ⟨⟨x1, a1⟩, e1, hv⟩ := bind_ok hv
  obtain ⟨y1, b1, f1, l1, m1⟩ := stageProcSsePosRec_low h hxy e1
  rw [f1, ok_bind]
  simp only at hv ⊢
  obtain ⟨a2, e3, hv⟩ := bind_ok hv
  obtain ⟨b2, f3, m2⟩ := stStage_low m1 l1 e3
  rw [f3, ok_bind]
  simp only [pure_eq_ok, Except.ok.injEq, Prod.mk.injEq] at hv
  exact ⟨_, _, rfl, hv.1 ▸ l1, hv.2 ▸ m2⟩

theorem ld4u_ok {b : Buf F} {off : Nat} {v : V4 F} (h : b.ld4u off = .ok v) :
    off + 4 ≤ b.len ∧ v.x0 = b.get off ∧ v.x1 = b.get (off + 1) := by
  unfold Buf.ld4u at h
  obtain ⟨x0, h0, h⟩ := bind_ok h
  obtain ⟨x1, h1, h⟩ := bind_ok h
  obtain ⟨x2, h2, h⟩ := bind_ok h
  obtain ⟨x3, h3, h⟩ := bind_ok h
  simp only [pure_eq_ok, Except.ok.injEq] at h
  have := rd_ok h3
  subst h
  exact ⟨by omega, (rd_ok h0).2.symm, (rd_ok h1).2.symm⟩

theorem LowMem.refl (a : Buf (V4 F)) : LowMem a a := ⟨rfl, rfl, fun _ => ⟨rfl, rfl⟩⟩

theorem SseFilter.Low.refl (f : SseFilter F) : f.Low f := ⟨rfl, rfl, rfl, LowMem.refl _⟩

/-- SSE upsampler. -/
theorem SseFilter.up_overlap {bld : Build} {f f' : SseFilter F} {m o o' : Buf F} {ioff n ooff ooff' : Nat}
    (hov : ioff + n ≤ ooff ∨ ooff + n ≤ ioff) (hlen : ooff + 2 * n ≤ m.len) (h : f.upBlock bld m ioff n o ooff' = .ok (f', o')) :
    ∃ m', f.upBlockMem bld m ioff n ooff = .ok (f', m') ∧ m'.len = m.len ∧ m'.addr = m.addr ∧
      (∀ i < 2 * n, m'.get (ooff + i) = o'.get (ooff' + i)) ∧ ∀ j, j < ooff ∨ ooff + 2 * n ≤ j → m'.get j = m.get j := by
  unfold SseFilter.upBlock at h
  unfold SseFilter.upBlockMem
  obtain ⟨u, h1, h⟩ := bind_ok h
  rw [assert_of (by simpa using hov), ok_bind, h1, ok_bind]
  refine forN_sim_pair (s := (f, o)) (t := (f, m)) (fun k (s t : SseFilter F × Buf F) =>
      t.1 = s.1 ∧ t.2.len = m.len ∧ t.2.addr = m.addr ∧ (∀ i < 2 * k, t.2.get (ooff + i) = s.2.get (ooff' + i)) ∧
      ∀ j, j < ooff ∨ ooff + 2 * k ≤ j → t.2.get j = m.get j)
    ?_ ⟨rfl, rfl, rfl, by intro i hi; omega, fun _ _ => rfl⟩ h ?_
  · rintro k hk ⟨g, b⟩ ⟨g', b'⟩ ⟨t, l⟩ ⟨h1, h2, h3, h4, h5⟩ hs
    simp only at h1 h2 h3 h4 h5 hs ⊢
    subst h1
    obtain ⟨v, r1, hs⟩ := bind_ok hs
    obtain ⟨q1, q2⟩ := rd_ok r1
    rw [Buf.rd_eq (by omega), ok_bind, h5 _ (by omega), q2]
    obtain ⟨⟨x, mm⟩, hp, hs⟩ := bind_ok hs
    rw [hp, ok_bind]
    obtain ⟨b2, hw, hs⟩ := bind_ok hs
    obtain ⟨b3, hw', hs⟩ := bind_ok hs
    simp only [pure_eq_ok, Except.ok.injEq, Prod.mk.injEq] at hs
    obtain ⟨w1, w2⟩ := wr_ok hw
    obtain ⟨w3, w4⟩ := wr_ok hw'
    simp only
    rw [Buf.wr_eq _ (by omega), ok_bind, Buf.wr_eq _ (by simp only [Buf.upd_len]; omega), ok_bind]
    refine ⟨_, rfl, hs.1, h2, h3, ?_, ?_⟩
    · intro i hi
      simp only [Buf.upd_get, ← hs.2, w4, w2]
      by_cases hik : i = 2 * k + 1
      · rw [if_pos (by omega), if_pos (by omega)]
      · by_cases hik' : i = 2 * k
        · rw [if_neg (by omega), if_pos (by omega), if_neg (by omega), if_pos (by omega)]
        · rw [if_neg (by omega), if_neg (by omega), if_neg (by omega), if_neg (by omega)]
          exact h4 i (by omega)
    · intro j hj
      simp only [Buf.upd_get]
      rw [if_neg (by omega), if_neg (by omega)]
      exact h5 j (by omega)
  · exact fun t hR => hR

/-- SSE downsampler. -/
theorem SseFilter.down_overlap {bld : Build} {f f' : SseFilter F} {m o o' : Buf F} {ioff n ooff ooff' : Nat}
    (hov : ooff ≤ ioff ∨ ioff + n * 2 ≤ ooff) (hlen : ooff + n ≤ m.len) (h : f.downBlock bld m ioff n o ooff' = .ok (f', o')) :
    ∃ f'' m', f.downBlockMem bld m ioff n ooff = .ok (f'', m') ∧ f'.Low f'' ∧ m'.len = m.len ∧ m'.addr = m.addr ∧
      (∀ i < n, m'.get (ooff + i) = o'.get (ooff' + i)) ∧ ∀ j, j < ooff ∨ ooff + n ≤ j → m'.get j = m.get j := by
  unfold SseFilter.downBlock at h
  unfold SseFilter.downBlockMem
  obtain ⟨u, h1, h⟩ := bind_ok h
  rw [assert_of (by simpa using hov), ok_bind, h1, ok_bind]
  refine forN_sim_pair' (fun k (s t : SseFilter F × Buf F) =>
      s.1.Low t.1 ∧ t.2.len = m.len ∧ t.2.addr = m.addr ∧ (∀ i < k, t.2.get (ooff + i) = s.2.get (ooff' + i)) ∧
      ∀ j, j < ooff ∨ ooff + k ≤ j → t.2.get j = m.get j)
    ?_ ⟨SseFilter.Low.refl f, rfl, rfl, by intro i hi; omega, fun _ _ => rfl⟩ h ?_
  · rintro k hk ⟨g, b⟩ ⟨g', b'⟩ ⟨t, l⟩ ⟨h1, h2, h3, h4, h5⟩ hs
    simp only at h1 h2 h3 h4 h5 hs ⊢
    obtain ⟨x, r1, hs⟩ := bind_ok hs
    obtain ⟨q1, q2, q3⟩ := ld4u_ok r1
    rw [Buf.ld4u_eq (by omega), ok_bind]
    obtain ⟨⟨y, mm⟩, hp, hs⟩ := bind_ok hs
    obtain ⟨y', mm', e', ly, lm⟩ := stageProcSsePos_low h1.2.2.2 (y := ⟨l.get (ioff + k * 2), l.get (ioff + k * 2 + 1),
      l.get (ioff + k * 2 + 2), l.get (ioff + k * 2 + 3)⟩) ⟨by rw [q2]; exact (h5 _ (by omega)).symm, by rw [q3]; exact (h5 _ (by omega)).symm⟩ hp
    rw [← h1.1, ← h1.2.1, ← h1.2.2.1, e', ok_bind]
    obtain ⟨b2, hw, hs⟩ := bind_ok hs
    simp only [pure_eq_ok, Except.ok.injEq, Prod.mk.injEq] at hs
    obtain ⟨w1, w2⟩ := wr_ok hw
    simp only
    rw [Buf.wr_eq _ (by omega), ok_bind]
    refine ⟨_, rfl, ⟨?_, ?_, ?_, ?_⟩, h2, h3, ?_, ?_⟩
    · rw [← hs.1]
    · rw [← hs.1]
    · rw [← hs.1]
    · rw [← hs.1]; exact lm
    · intro i hi
      simp only [Buf.upd_get, ← hs.2, w2]
      by_cases hik : i = k
      · rw [if_pos (by omega), if_pos (by omega), ly.1, ly.2]
      · rw [if_neg (by omega), if_neg (by omega)]
        exact h4 i (by omega)
    · intro j hj
      simp only [Buf.upd_get]
      rw [if_neg (by omega)]
      exact h5 j (by omega)
  · exact fun t hR => hR

/-- SSE splitter; the two outputs do not overlap each other. -/
theorem SseFilter.split_overlap {bld : Build} {f f' : SseFilter F} {m outL outH l u : Buf F} {ioff n loff hoff loff' hoff' : Nat}
    (hn : 0 < n) (hovl : loff ≤ ioff ∨ ioff + n * 2 ≤ loff) (hovh : hoff ≤ ioff ∨ ioff + n * 2 ≤ hoff)
    (hdis : loff + n ≤ hoff ∨ hoff + n ≤ loff) (hlen : loff + n ≤ m.len) (hlen' : hoff + n ≤ m.len)
    (h : f.splitBlock bld m ioff n outL loff' outH hoff' = .ok (f', l, u)) :
    ∃ f'' m', f.splitBlockMem bld m ioff n loff hoff = .ok (f'', m') ∧ f'.Low f'' ∧ m'.len = m.len ∧ m'.addr = m.addr ∧
      (∀ i < n, m'.get (loff + i) = l.get (loff' + i) ∧ m'.get (hoff + i) = u.get (hoff' + i)) ∧
      ∀ j, (j < loff ∨ loff + n ≤ j) → (j < hoff ∨ hoff + n ≤ j) → m'.get j = m.get j := by
  unfold SseFilter.splitBlock at h
  unfold SseFilter.splitBlockMem
  obtain ⟨_, h1, h⟩ := bind_ok h
  rw [assert_of (by simpa using hovl), ok_bind, assert_of (by simpa using hovh), ok_bind,
    assert_of (by simp only [ne_eq, decide_not, Bool.not_eq_true', decide_eq_false_iff_not]; omega), ok_bind, h1, ok_bind]
  refine forN_sim_pair' (fun k (s : SseFilter F × Buf F × Buf F) (t : SseFilter F × Buf F) =>
      s.1.Low t.1 ∧ t.2.len = m.len ∧ t.2.addr = m.addr ∧
      (∀ i < k, t.2.get (loff + i) = s.2.1.get (loff' + i) ∧ t.2.get (hoff + i) = s.2.2.get (hoff' + i)) ∧
      ∀ j, (j < loff ∨ loff + k ≤ j) → (j < hoff ∨ hoff + k ≤ j) → t.2.get j = m.get j)
    ?_ ⟨SseFilter.Low.refl f, rfl, rfl, by intro i hi; omega, fun _ _ _ => rfl⟩ h ?_
  · rintro k hk ⟨g, b, c⟩ ⟨g', b', c'⟩ ⟨t, l⟩ ⟨h1, h2, h3, h4, h5⟩ hs
    simp only at h1 h2 h3 h4 h5 hs ⊢
    obtain ⟨x, r1, hs⟩ := bind_ok hs
    obtain ⟨q1, q2, q3⟩ := ld4u_ok r1
    rw [Buf.ld4u_eq (by omega), ok_bind]
    obtain ⟨⟨y, mm⟩, hp, hs⟩ := bind_ok hs
    obtain ⟨y', mm', e', ly, lm⟩ := stageProcSsePos_low h1.2.2.2 (y := ⟨l.get (ioff + k * 2), l.get (ioff + k * 2 + 1),
      l.get (ioff + k * 2 + 2), l.get (ioff + k * 2 + 3)⟩)
      ⟨by rw [q2]; exact (h5 _ (by omega) (by omega)).symm, by rw [q3]; exact (h5 _ (by omega) (by omega)).symm⟩ hp
    rw [← h1.1, ← h1.2.1, ← h1.2.2.1, e', ok_bind]
    obtain ⟨b2, hw, hs⟩ := bind_ok hs
    obtain ⟨c2, hw', hs⟩ := bind_ok hs
    simp only [pure_eq_ok, Except.ok.injEq, Prod.mk.injEq] at hs
    obtain ⟨w1, w2⟩ := wr_ok hw
    obtain ⟨w3, w4⟩ := wr_ok hw'
    simp only
    rw [Buf.wr_eq _ (by omega), ok_bind, Buf.wr_eq _ (by simp only [Buf.upd_len]; omega), ok_bind]
    refine ⟨_, rfl, ⟨?_, ?_, ?_, ?_⟩, h2, h3, ?_, ?_⟩
    · rw [← hs.1]
    · rw [← hs.1]
    · rw [← hs.1]
    · rw [← hs.1]; exact lm
    · intro i hi
      simp only [Buf.upd_get, ← hs.2.1, ← hs.2.2, w2, w4]
      by_cases hik : i = k
      · rw [if_neg (by omega), if_pos (by omega), if_pos (by omega), if_pos (by omega), if_pos (by omega), ly.1, ly.2]
        exact ⟨rfl, rfl⟩
      · rw [if_neg (by omega), if_neg (by omega), if_neg (by omega), if_neg (by omega), if_neg (by omega), if_neg (by omega)]
        exact h4 i (by omega)
    · intro j hj hj'
      simp only [Buf.upd_get]
      rw [if_neg (by omega), if_neg (by omega)]
      exact h5 j (by omega) (by omega)
  · exact fun t hR => hR

end Panda
