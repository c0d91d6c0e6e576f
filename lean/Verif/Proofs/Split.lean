import Verif.Spec.Hiir
import Verif.Proofs.InPlace

/-!
# Band splitting: what `process_block_split` computes
-/

set_option linter.unusedSectionVars false

namespace Panda

variable {F : Type} [Zero F] [One F] [Add F] [Sub F] [Mul F] [Sample F]

/-- One call of `Downsampler2xFpu::process_block_split`. -/
theorem FpuFilter.splitBlock_sat {bld : Build} {f : FpuFilter F} {nc : Nat} {c xe xo : Nat → F} {n k ioff loff hoff : Nat}
    {input outL outH : Buf F} (hf : f.Wf nc c) (hm : FpuMem nc c xo xe n f.mem) (hk : 0 < k)
    (hin : ioff + 2 * k ≤ input.len) (hxe : ∀ i < k, input.get (ioff + 2 * i) = xe (n + i))
    (hxo : ∀ i < k, input.get (ioff + 2 * i + 1) = xo (n + i)) (hl : loff + k ≤ outL.len) (hh : hoff + k ≤ outH.len) :
    Sat (f.splitBlock bld input ioff k outL loff outH hoff) (fun r => r.1.Wf nc c ∧ FpuMem nc c xo xe (n + k) r.1.mem ∧
      r.2.1.len = outL.len ∧ r.2.2.len = outH.len ∧
      (∀ i < k, r.2.1.get (loff + i) = (branchOut nc c 0 xo (n + i) + branchOut nc c 1 xe (n + i)) * Sample.half ∧
        r.2.2.get (hoff + i) = branchOut nc c 0 xo (n + i) - r.2.1.get (loff + i)) ∧
      (∀ j, j < loff ∨ loff + k ≤ j → r.2.1.get j = outL.get j) ∧
      ∀ j, j < hoff ∨ hoff + k ≤ j → r.2.2.get j = outH.get j) := by
  unfold FpuFilter.splitBlock Build.assert doWhileN
  rw [show (bld.ndebug || decide (k > 0)) = true by simp [hk], if_pos rfl, pure_eq_ok, ok_bind,
    show max k 1 = k by omega]
  refine sat_forN (fun m (r : FpuFilter F × Buf F × Buf F) => r.1.Wf nc c ∧ FpuMem nc c xo xe (n + m) r.1.mem ∧
      r.2.1.len = outL.len ∧ r.2.2.len = outH.len ∧
      (∀ i < m, r.2.1.get (loff + i) = (branchOut nc c 0 xo (n + i) + branchOut nc c 1 xe (n + i)) * Sample.half ∧
        r.2.2.get (hoff + i) = branchOut nc c 0 xo (n + i) - r.2.1.get (loff + i)) ∧
      (∀ j, j < loff ∨ loff + m ≤ j → r.2.1.get j = outL.get j) ∧
      ∀ j, j < hoff ∨ hoff + m ≤ j → r.2.2.get j = outH.get j)
    ⟨hf, hm, rfl, rfl, by intro i hi; omega, fun _ _ => rfl, fun _ _ => rfl⟩ ?_
  rintro m hmk ⟨g, l, u⟩ ⟨hw, hme, h1, h2, hv, hfl, hfh⟩
  simp only at hw hme h1 h2 hv hfl hfh ⊢
  have e1 : ioff + (m * 2 + 1) = ioff + 2 * m + 1 := by omega
  have e2 : ioff + m * 2 = ioff + 2 * m := by omega
  rw [e1, e2, Buf.rd_eq (by omega), ok_bind, Buf.rd_eq (by omega), ok_bind, hxo m hmk, hxe m hmk]
  unfold FpuFilter.splitSample
  refine sat_bind (sat_bind (stageProcFpuPos_full hw hme rfl rfl) (Q := fun r =>
    r.1 = (branchOut nc c 0 xo (n + m) + branchOut nc c 1 xe (n + m)) * Sample.half ∧
    r.2.1 = branchOut nc c 0 xo (n + m) - r.1 ∧
    r.2.2.Wf nc c ∧ FpuMem nc c xo xe (n + m + 1) r.2.2.mem) ?_) ?_
  · rintro ⟨a, b, mm⟩ ⟨h1, h2, h3, h4, h5, h6⟩
    simp only at h1 h2
    exact sat_ok ⟨by simp only [h1, h2], by simp only [h1, h2], ⟨hw.nc_eq, hw.nc_pos, hw.coef_len, h3.trans hw.mem_len, hw.coef_eq,
      fun i hi => (h6 i hi).trans (hw.mem_out i hi)⟩, h5⟩
  · rintro ⟨a, b, g'⟩ ⟨h3, h4, h5, h6⟩
    simp only at h3 h4 h5 h6 ⊢
    rw [Buf.wr_eq _ (by omega), ok_bind, Buf.wr_eq _ (by omega), ok_bind]
    refine sat_ok ⟨h5, h6, h1, h2, ?_, ?_, ?_⟩
    · intro i hi
      simp only [Buf.upd_get]
      by_cases him : i = m
      · subst him
        rw [if_pos rfl, if_pos rfl]
        exact ⟨h3, h4⟩
      · rw [if_neg (by omega), if_neg (by omega)]
        exact hv i (by omega)
    · intro j hj
      simp only [Buf.upd_get]
      rw [if_neg (by omega)]
      exact hfl j (by omega)
    · intro j hj
      simp only [Buf.upd_get]
      rw [if_neg (by omega)]
      exact hfh j (by omega)

/-- One call of `Downsampler2xSse::process_block_split`. -/
theorem SseFilter.splitBlock_sat {bld : Build} {f : SseFilter F} {nc : Nat} {c xe xo : Nat → F} {n k ioff loff hoff : Nat}
    {input outL outH : Buf F} (hf : f.Wf nc c) (hm : SseMem nc (sseCoef0 nc c) (fun j => c (2 * j)) xe xo n f.mem)
    (hk : 0 < k)
    (hin : ioff + 2 * k + 2 ≤ input.len) (hxe : ∀ i < k, input.get (ioff + 2 * i) = xe (n + i))
    (hxo : ∀ i < k, input.get (ioff + 2 * i + 1) = xo (n + i)) (hl : loff + k ≤ outL.len) (hh : hoff + k ≤ outH.len) :
    Sat (f.splitBlock bld input ioff k outL loff outH hoff) (fun r => r.1.Wf nc c ∧
      SseMem nc (sseCoef0 nc c) (fun j => c (2 * j)) xe xo (n + k) r.1.mem ∧
      r.2.1.len = outL.len ∧ r.2.2.len = outH.len ∧
      (∀ i < k, r.2.1.get (loff + i) = branchOut nc c 0 xo (n + i) * Sample.half + iirBranch1 true nc c xe (n + i) * Sample.half ∧
        r.2.2.get (hoff + i) = branchOut nc c 0 xo (n + i) * Sample.half - iirBranch1 true nc c xe (n + i) * Sample.half) ∧
      (∀ j, j < loff ∨ loff + k ≤ j → r.2.1.get j = outL.get j) ∧
      ∀ j, j < hoff ∨ hoff + k ≤ j → r.2.2.get j = outH.get j) := by
  unfold SseFilter.splitBlock Build.assert
  rw [show (bld.ndebug || decide (k > 0)) = true by simp [hk], if_pos rfl, pure_eq_ok, ok_bind]
  refine sat_forN (fun m (r : SseFilter F × Buf F × Buf F) => r.1.Wf nc c ∧
      SseMem nc (sseCoef0 nc c) (fun j => c (2 * j)) xe xo (n + m) r.1.mem ∧
      r.2.1.len = outL.len ∧ r.2.2.len = outH.len ∧
      (∀ i < m, r.2.1.get (loff + i) = branchOut nc c 0 xo (n + i) * Sample.half + iirBranch1 true nc c xe (n + i) * Sample.half ∧
        r.2.2.get (hoff + i) = branchOut nc c 0 xo (n + i) * Sample.half - iirBranch1 true nc c xe (n + i) * Sample.half) ∧
      (∀ j, j < loff ∨ loff + m ≤ j → r.2.1.get j = outL.get j) ∧
      ∀ j, j < hoff ∨ hoff + m ≤ j → r.2.2.get j = outH.get j)
    ⟨hf, hm, rfl, rfl, by intro i hi; omega, fun _ _ => rfl, fun _ _ => rfl⟩ ?_
  rintro m hmk ⟨g, l, u⟩ ⟨hw, hme, p1, p2, hv, hfl, hfh⟩
  simp only at hw hme p1 p2 hv hfl hfh ⊢
  have e2 : ioff + m * 2 = ioff + 2 * m := by omega
  rw [e2, Buf.ld4u_eq (by omega), ok_bind]
  refine sat_bind (stageProcSsePos_sat hw hme (hxe m hmk) (hxo m hmk)) ?_
  rintro ⟨y, mm⟩ ⟨h1, h2, h3, h4, h5, h6⟩
  simp only at h1 h2 h3 h4 h5 ⊢
  rw [chain_odd_eq] at h1
  rw [chain_even_eq] at h2
  rw [Buf.wr_eq _ (by omega), ok_bind, Buf.wr_eq _ (by omega), ok_bind]
  refine sat_ok ⟨⟨hw.nc_eq, hw.nc_pos, hw.addr_ok, hw.coef_len, h3.trans hw.mem_len, hw.coef0, hw.coef1,
      fun k hk => (h6 k hk).trans (hw.mem_out k hk)⟩, h5, p1, p2, ?_, ?_, ?_⟩
  · intro i hi
    simp only [Buf.upd_get]
    by_cases him : i = m
    · subst him
      rw [if_pos rfl, if_pos rfl, h1, h2]
      exact ⟨rfl, rfl⟩
    · rw [if_neg (by omega), if_neg (by omega)]
      exact hv i (by omega)
  · intro j hj
    simp only [Buf.upd_get]
    rw [if_neg (by omega)]
    exact hfl j (by omega)
  · intro j hj
    simp only [Buf.upd_get]
    rw [if_neg (by omega)]
    exact hfh j (by omega)

theorem sat_of_ok {α : Type} {r : Res α} {P : α → Prop} {a : α} (h : Sat r P) (e : r = .ok a) : P a := by
  obtain ⟨b, hb, hp⟩ := h
  rw [e] at hb
  cases hb
  exact hp

theorem evens_append {xs ys : List F} (h : xs.length % 2 = 0) (i : Nat) :
    evens (seq (xs ++ ys)) (xs.length / 2 + i) = seq ys (2 * i) := by
  rw [evens, show 2 * (xs.length / 2 + i) = xs.length + 2 * i by omega, seq_append_right]

theorem odds_append {xs ys : List F} (h : xs.length % 2 = 0) (i : Nat) :
    odds (seq (xs ++ ys)) (xs.length / 2 + i) = seq ys (2 * i + 1) := by
  rw [odds, show 2 * (xs.length / 2 + i) + 1 = xs.length + (2 * i + 1) by omega, seq_append_right]

theorem evens_append_left {xs ys : List F} {i : Nat} (h : i < xs.length / 2) : evens (seq xs) i = evens (seq (xs ++ ys)) i := by
  rw [evens, evens, seq_append_left (by omega)]

theorem odds_append_left {xs ys : List F} {i : Nat} (h : i < xs.length / 2) : odds (seq xs) i = odds (seq (xs ++ ys)) i := by
  rw [odds, odds, seq_append_left (by omega)]

theorem FpuFilter.Reach.inv {cs : Buf F} {f : FpuFilter F} {xs : List F} (hcs : 0 < cs.len) (h : FpuFilter.Reach cs f xs) :
    f.Wf cs.len cs.get ∧ xs.length % 2 = 0 ∧
      FpuMem cs.len cs.get (odds (seq xs)) (evens (seq xs)) (xs.length / 2) f.mem := by
  induction h with
  | new h =>
    obtain ⟨h1, h2, h3⟩ := sat_of_ok (FpuFilter.new_sat hcs) h
    exact ⟨h1, rfl, by rw [List.length_nil, Nat.zero_div]; exact h3 _ _ _⟩
  | @block f xs bld input ioff n o ooff f' o' h hn hi ho e ih =>
    obtain ⟨h1, h2, h3⟩ := ih
    obtain ⟨r1, r2, r3, _⟩ := sat_of_ok (FpuFilter.downBlock_sat h1
      (h3.congr (y0 := odds (seq (xs ++ input.slice ioff (2 * n)))) (y1 := evens (seq (xs ++ input.slice ioff (2 * n))))
        (fun i hi => odds_append_left hi) fun i hi => evens_append_left hi) hn hi
      (fun i hi => by rw [evens_append h2, Buf.seq_slice (by omega)])
      (fun i hi => by rw [odds_append h2, Buf.seq_slice (by omega), Nat.add_assoc]) ho) e
    refine ⟨r1, by rw [List.length_append, Buf.slice_length]; omega, ?_⟩
    rwa [List.length_append, Buf.slice_length, show (xs.length + 2 * n) / 2 = xs.length / 2 + n by omega]
  | @split f xs bld input ioff n l loff h hoff f' l' h' hr hn hi hl hh e ih =>
    obtain ⟨h1, h2, h3⟩ := ih
    obtain ⟨r1, r3, _⟩ := sat_of_ok (FpuFilter.splitBlock_sat h1
      (h3.congr (y0 := odds (seq (xs ++ input.slice ioff (2 * n)))) (y1 := evens (seq (xs ++ input.slice ioff (2 * n))))
        (fun i hi => odds_append_left hi) fun i hi => evens_append_left hi) hn hi
      (fun i hi => by rw [evens_append h2, Buf.seq_slice (by omega)])
      (fun i hi => by rw [odds_append h2, Buf.seq_slice (by omega), Nat.add_assoc]) hl hh) e
    refine ⟨r1, by rw [List.length_append, Buf.slice_length]; omega, ?_⟩
    rwa [List.length_append, Buf.slice_length, show (xs.length + 2 * n) / 2 = xs.length / 2 + n by omega]
  | clear h e ih =>
    obtain ⟨h1, _, h3⟩ := sat_of_ok (FpuFilter.clearBuffers_sat ih.1) e
    exact ⟨h1, rfl, by rw [List.length_nil, Nat.zero_div]; exact h3 _ _ _⟩

theorem SseFilter.Reach.inv {cs : Buf F} {f : SseFilter F} {xs : List F} (hcs : 0 < cs.len) (h : SseFilter.Reach cs f xs) :
    f.Wf cs.len cs.get ∧ xs.length % 2 = 0 ∧
      SseMem cs.len (sseCoef0 cs.len cs.get) (fun j => cs.get (2 * j)) (evens (seq xs)) (odds (seq xs)) (xs.length / 2) f.mem := by
  induction h with
  | new ha h =>
    obtain ⟨h1, h2, h3⟩ := sat_of_ok (SseFilter.new_sat ha hcs) h
    exact ⟨h1, rfl, by rw [List.length_nil, Nat.zero_div]; exact h3 _ _ _ _⟩
  | @block f xs bld input ioff n o ooff f' o' h hn hi ho e ih =>
    obtain ⟨h1, h2, h3⟩ := ih
    obtain ⟨r1, r2, r3, _⟩ := sat_of_ok (SseFilter.downBlock_sat h1
      (h3.congr (y1 := odds (seq (xs ++ input.slice ioff (2 * n)))) (y0 := evens (seq (xs ++ input.slice ioff (2 * n))))
        (fun i hi => evens_append_left hi) fun i hi => odds_append_left hi) (.inr hn) (fun _ => hi)
      (fun i hi => by rw [evens_append h2, Buf.seq_slice (by omega)])
      (fun i hi => by rw [odds_append h2, Buf.seq_slice (by omega), Nat.add_assoc]) ho) e
    refine ⟨r1, by rw [List.length_append, Buf.slice_length]; omega, ?_⟩
    rwa [List.length_append, Buf.slice_length, show (xs.length + 2 * n) / 2 = xs.length / 2 + n by omega]
  | @split f xs bld input ioff n l loff h hoff f' l' h' hr hn hi hl hh e ih =>
    obtain ⟨h1, h2, h3⟩ := ih
    obtain ⟨r1, r3, _⟩ := sat_of_ok (SseFilter.splitBlock_sat h1
      (h3.congr (y1 := odds (seq (xs ++ input.slice ioff (2 * n)))) (y0 := evens (seq (xs ++ input.slice ioff (2 * n))))
        (fun i hi => evens_append_left hi) fun i hi => odds_append_left hi) hn hi
      (fun i hi => by rw [evens_append h2, Buf.seq_slice (by omega)])
      (fun i hi => by rw [odds_append h2, Buf.seq_slice (by omega), Nat.add_assoc]) hl hh) e
    refine ⟨r1, by rw [List.length_append, Buf.slice_length]; omega, ?_⟩
    rwa [List.length_append, Buf.slice_length, show (xs.length + 2 * n) / 2 = xs.length / 2 + n by omega]
  | clear h e ih =>
    obtain ⟨h1, _, h3⟩ := sat_of_ok (SseFilter.clearBuffers_sat ih.1) e
    exact ⟨h1, rfl, by rw [List.length_nil, Nat.zero_div]; exact h3 _ _ _ _⟩

end Panda
