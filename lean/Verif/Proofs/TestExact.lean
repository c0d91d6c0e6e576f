import Verif.Proofs.Linear
import Verif.Proofs.TestHarness

/-!
# The tests run by the test program, in exact arithmetic
-/

set_option linter.unusedSectionVars false

namespace Panda.Tool

open Panda

variable {K : Type} [CommRing K] [Sample K]

/-- What is tested: the exact upsampler, downsampler, or one after the other. -/
def Setup.op (su : Setup) (x : ℕ → K) : ℕ → K :=
  match su.type with
  | .up => su.ups.op x
  | .down => su.downs.op x
  | .over => su.downs.op (su.ups.op x)
  | .sub => su.ups.op (su.downs.op x)

/-- The order of both filters. -/
def Setup.order (su : Setup) : ℕ := ((firTable 2 su.precision).getD []).length

theorem up_local {su : Setup} (hs : su.Ok) {x y : ℕ → K} {n : ℕ}
    (h : ∀ i, n / 2 ≤ i + (su.order - 1) → i ≤ n / 2 → x i = y i) : su.ups.op x n = su.ups.op y n :=
  Config.op_local_up hs.ups rfl rfl h

theorem down_local {su : Setup} (hs : su.Ok) {x y : ℕ → K} {n : ℕ}
    (h : ∀ i, 2 * n ≤ i + 2 * (su.order - 1) → i < 2 * (n + 1) → x i = y i) : su.downs.op x n = su.downs.op y n :=
  Config.op_local_down hs.downs rfl rfl h

theorem order_le {su : Setup} (hs : su.Ok) : 1 ≤ su.order ∧ su.order ≤ 52 := by
  have := hs.precision
  unfold Setup.order
  revert this
  generalize su.precision = p
  revert p
  decide

theorem op_local {su : Setup} (hs : su.Ok) {x y : ℕ → K} {n H P : ℕ} (h : ∀ i, H ≤ i → i < P → x i = y i)
    (h1 : outN su.type H + 4 * su.order < n ∨ H = 0) (h2 : n < outN su.type P) : su.op x n = su.op y n := by
  have ho := order_le hs
  unfold Setup.op
  unfold outN at h1 h2
  cases ht : su.type <;> simp only [ht] at h1 h2 ⊢
  · exact down_local hs fun i a b => h i (by omega) (by omega)
  · exact up_local hs fun i a b => h i (by omega) (by omega)
  · exact up_local hs fun m a b => down_local hs fun i c d => h i (by omega) (by omega)
  · exact down_local hs fun m a b => up_local hs fun i c d => h i (by omega) (by omega)

theorem op_delayed {su : Setup} (hs : su.Ok) (x : ℕ → K) {H : ℕ} (hH : su.type = .down ∨ su.type = .sub → H % 2 = 0) (k : ℕ) :
    su.op (delayed H x) (outN su.type H + k) = su.op x k := by
  have hd : ∀ (D : ℕ) (y : ℕ → K), delayed D y (D + k) = y k := by
    intro D y
    unfold delayed
    rw [if_neg (by omega), Nat.add_sub_cancel_left]
  have up : ∀ (D : ℕ) (y : ℕ → K), su.ups.op (delayed D y) = delayed (D * 2) (su.ups.op y) :=
    fun D y => Config.op_delayed_up hs.ups rfl D y
  have down : ∀ (D : ℕ) (y : ℕ → K), su.downs.op (delayed (D * 2) y) = delayed D (su.downs.op y) :=
    fun D y => Config.op_delayed_down hs.downs rfl D y
  have h2 : su.type = .down ∨ su.type = .sub → delayed H x = delayed (H / 2 * 2) x := by
    intro h
    have := hH h
    rw [show H / 2 * 2 = H by omega]
  unfold Setup.op outN
  cases ht : su.type <;> simp only
  · rw [h2 (Or.inl ht), down, hd]
  · rw [up, hd]
  · rw [h2 (Or.inr ht), down, up, hd]
  · rw [up, down, show H * 2 / 2 = H by omega, hd]

theorem state_op {cfg : Config} (hv : cfg.Valid) {r r0 : Resampler K} {xs zs : List K} (h : r.State cfg r0 xs zs) :
    zs.length = cfg.outLen xs.length ∧ ∀ n < zs.length, seq zs n = cfg.op (seq xs) n :=
  ⟨Config.produced_length hv h.inv.rel, h.inv.rel.eq_op fun s hs v t e => (Config.stages_taps s hs v t e).1⟩

theorem streams_op {su : Setup} (hs : su.Ok) {u0 d0 : Resampler K} {s : St K} {xs zs : List K} (h : Streams su u0 d0 s xs zs) :
    zs.length = outN su.type xs.length ∧ ∀ n < zs.length, seq zs n = su.op (seq xs) n := by
  have du : ∀ m, su.ups.outLen m = m * 2 := fun m => rfl
  have dd : ∀ m, su.downs.outLen m = m / 2 := fun m => rfl
  unfold Streams at h
  unfold outN Setup.op
  cases ht : su.type <;> simp only [ht] at h ⊢
  · exact state_op hs.downs h.1
  · exact state_op hs.ups h.1
  · obtain ⟨ms, h1, h2⟩ := h
    obtain ⟨l1, e1⟩ := state_op hs.downs h1
    obtain ⟨l2, e2⟩ := state_op hs.ups h2
    rw [dd] at l1
    rw [du] at l2
    refine ⟨by omega, fun n hn => ?_⟩
    rw [e2 n hn]
    exact up_local hs fun i a b => e1 i (by omega)
  · obtain ⟨ms, h1, h2⟩ := h
    obtain ⟨l1, e1⟩ := state_op hs.ups h1
    obtain ⟨l2, e2⟩ := state_op hs.downs h2
    rw [du] at l1
    rw [dd] at l2
    refine ⟨by omega, fun n hn => ?_⟩
    rw [e2 n hn]
    exact down_local hs fun i a b => e1 i (by omega)

theorem seq_append_right (a b : List K) (k : ℕ) : seq (a ++ b) (a.length + k) = seq b k := by
  simp [seq, List.getD, List.getElem?_append_right]

theorem accInv_log {su : Setup} (hs : su.Ok) {u0 d0 : Resampler K} {s0 : St K} {sig : ℕ → K} {hx hz : List K} {a : Acc K}
    (h0 : Good su u0 d0 s0 hx hz) (hx2 : su.type = .down ∨ su.type = .sub → hx.length % 2 = 0)
    (h : AccInv su u0 d0 (su.ups.stageOrder 2) sig hx hz a) :
    a.log = ((List.range a.k).filter fun k => su.order * 4 < k).map fun k => (k, su.op sig k) := by
  obtain ⟨ys, hg, hlen, hlog⟩ := h.good
  obtain ⟨l0, -⟩ := streams_op hs h0.streams
  obtain ⟨l1, e1⟩ := streams_op hs hg.streams
  rw [hlog, logOf, hlen]
  apply List.map_congr_left
  intro k hk
  simp only [List.mem_filter, List.mem_range, decide_eq_true_eq] at hk
  have hk2 : su.order * 4 < k := hk.2
  have := e1 (hz.length + k) (by simp [hlen]; omega)
  rw [seq_append_right] at this
  rw [this, l0, ← op_delayed hs sig hx2 k]
  congr 1
  refine op_local hs (H := hx.length) (P := (hx ++ (List.range a.phase).map sig).length) ?_ (Or.inl (by omega)) ?_
  · intro i h1 h2
    simp only [List.length_append, List.length_map, List.length_range] at h2
    obtain ⟨j, rfl⟩ : ∃ j, i = hx.length + j := ⟨i - hx.length, by omega⟩
    rw [seq_append_right]
    unfold delayed
    rw [if_neg (by omega), Nat.add_sub_cancel_left]
    simp [seq, show j < a.phase by omega]
  · rw [← l1, ← l0, List.length_append, hlen]
    omega

/-- `1, 0, 0, ...` -/
def delta : ℕ → K := fun i => if i = 0 then 1 else 0

theorem op_zero {su : Setup} (n : ℕ) : su.op (fun _ => (0 : K)) n = 0 := by
  have h : ∀ cfg : Config, cfg.op (fun _ => (0 : K)) = fun _ => 0 := by
    intro cfg
    have := Config.op_lin cfg (0 : K) 0 (fun _ => 0) (fun _ => 0)
    simpa using this
  unfold Setup.op
  cases su.type <;> simp only [h]

theorem impulse_sat {su : Setup} (hs : su.Ok) (hb : su.blockSize = 150) {u0 d0 : Resampler K} (hu0 : u0.Fresh su.ups)
    (hd0 : d0.Fresh su.downs) {s : St K} (h : Good su u0 d0 s [] []) (z1 : ∀ j, s.output.get j = 0) (z2 : ∀ j, s.output2.get j = 0)
    (st : Stack K × Stack K) :
    impulse su st s = .ok ((List.range 150).map fun n => if su.type = .down ∧ 75 ≤ n then 0 else su.op delta n) := by
  have l1 := h.input
  have l2 := h.output
  have l3 := h.output2
  rw [hb] at l1 l2 l3
  suffices Sat (impulse su st s) (fun l => l = (List.range 150).map fun n => if su.type = .down ∧ 75 ≤ n then 0 else su.op delta n) by
    obtain ⟨l, h1, rfl⟩ := this
    exact h1
  unfold impulse
  rw [Buf.wr_eq _ (by omega), ok_bind, hb]
  refine sat_bind (sat_forN (fun m (s' : St K) => Streams su u0 d0 s' [] [] ∧ s'.input.len = 300 ∧ s'.output.len = 300 ∧
    s'.output2.len = 300 ∧ (∀ j ≤ m, s'.input.get j = delta j) ∧ (∀ j, s'.output.get j = 0) ∧ ∀ j, s'.output2.get j = 0)
    ⟨h.streams, l1, l2, l3, ?_, z1, z2⟩ ?_) ?_
  · intro j hj
    obtain rfl : j = 0 := by omega
    simp [delta]
  · rintro i hi s' ⟨g1, g2, g3, g4, g5, g6, g7⟩
    rw [Buf.wr_eq _ (by omega), Buf.wr_eq _ (by omega), Buf.wr_eq _ (by omega)]
    refine sat_ok ⟨g1, g2, g3, g4, ?_, ?_, ?_⟩
    · intro j hj
      rw [Buf.upd_get]
      by_cases e : j = i + 1
      · rw [if_pos e, e]; simp [delta]
      · rw [if_neg e, g5 j (by omega)]
    · intro j
      rw [Buf.upd_get]
      split
      · rfl
      · exact g6 j
    · intro j
      rw [Buf.upd_get]
      split
      · rfl
      · exact g7 j
  rintro s' ⟨g1, g2, g3, g4, g5, g6, g7⟩
  have hg : Good su u0 d0 s' [] [] := ⟨g1, by rw [hb]; exact g2, by rw [hb]; exact g3, by rw [hb]; exact g4⟩
  refine sat_bind (callBoth_sat hs hu0 hd0 hg (by omega) (off := 0) (n := 150) (by omega) (fun _ => rfl) (fun _ => rfl) st) ?_
  rintro s'' ⟨k1, -, k3⟩
  have hcl : (s''.check su.type).len = 300 := by
    unfold St.check
    have a := k1.output
    have b := k1.output2
    rw [hb] at a b
    cases su.type <;> first | exact a | exact b
  have hz : ∀ j, (s'.check su.type).get j = 0 := by
    unfold St.check
    cases su.type <;> first | exact g6 | exact g7
  have hrd : ∀ m ≤ 150, forN (fun i l => do pure (l ++ [← (s''.check su.type).rd i])) m [] =
      (.ok ((s''.check su.type).toList m) : Res (List K)) := by
    intro m hm
    induction m with
    | zero => rfl
    | succ m ih =>
      rw [forN, ih (by omega), ok_bind, Buf.rd_eq (by omega)]
      simp [Buf.toList, List.range_succ]
  rw [hrd 150 (Nat.le_refl _)]
  refine sat_ok ?_
  unfold Buf.toList
  apply List.map_congr_left
  intro n hn
  rw [List.mem_range] at hn
  obtain ⟨e1, e2⟩ := streams_op hs k1.streams
  simp only [List.nil_append] at e1 e2
  have hl : ((s''.check su.type).toList (outN su.type 150)).length = outN su.type 150 := by simp [Buf.toList]
  rw [hl] at e2
  by_cases hd : su.type = .down ∧ 75 ≤ n
  · rw [if_pos hd, k3 n (by rw [hd.1]; exact hd.2), hz]
  · rw [if_neg hd]
    have hno : n < outN su.type 150 := by
      unfold outN
      cases ht : su.type <;> simp [ht] at hd ⊢ <;> omega
    have := e2 n hno
    rw [show seq ((s''.check su.type).toList (outN su.type 150)) n = (s''.check su.type).get n by
      simp [seq, Buf.toList, hno]] at this
    rw [this]
    refine op_local hs (H := 0) (P := 150) ?_ (Or.inr rfl) hno
    intro i _ hi
    rw [← g5 i (by omega)]
    simp [seq, hi]

theorem impulse_rest {su : Setup} (hs : su.Ok) (n : ℕ) (h : (if su.type = .down then 75 else 150) ≤ n)
    (hsub : su.type = .sub → su.order ≤ 38) : su.op (delta : ℕ → K) n = 0 := by
  have ho := order_le hs
  rw [← op_zero (su := su) n]
  have key : ∀ i, 1 ≤ i → (delta : ℕ → K) i = (fun _ => 0) i := by
    intro i hi
    simp [delta]
    omega
  unfold Setup.op
  cases ht : su.type <;> simp [ht] at h hsub <;> simp only
  · exact down_local hs fun i a b => key i (by omega)
  · exact up_local hs fun i a b => key i (by omega)
  · exact up_local hs fun m a b => down_local hs fun i c d => key i (by omega)
  · exact down_local hs fun m a b => up_local hs fun i c d => key i (by omega)

end Panda.Tool
