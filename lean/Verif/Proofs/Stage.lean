import Verif.Spec.Stage
import Verif.Model.Resampler
import Verif.Proofs.FirDown
import Verif.Proofs.Iir

/-!
# One stage: what a call of `Impl::process_block` does to the stream relation
-/

set_option linter.unusedSectionVars false

namespace Panda

variable {F : Type} [Zero F] [One F] [Add F] [Sub F] [Mul F] [Sample F]

/-! ## Lists as sequences -/

section
omit [One F] [Add F] [Sub F] [Mul F] [Sample F]

theorem seq_append_left {xs c : List F} {k : Nat} (h : k < xs.length) : seq (xs ++ c) k = seq xs k := by
  simp [seq, List.getElem?_append_left h]

theorem seq_append_right {xs c : List F} (k : Nat) : seq (xs ++ c) (xs.length + k) = seq c k := by
  simp [seq, List.getElem?_append_right (Nat.le_add_right _ _)]

theorem seq_nil (k : Nat) : seq ([] : List F) k = 0 := rfl

theorem padded_congr {O : Nat} {x y : Nat → F} {k N : Nat} (hk : k < N + (O - 1)) (h : ∀ i < N, x i = y i) :
    padded O x k = padded O y k := by
  unfold padded
  by_cases hlt : k < O - 1
  · rw [if_pos hlt, if_pos hlt]
  · rw [if_neg hlt, if_neg hlt]
    exact h _ (by omega)

theorem padded_add (O : Nat) (x : Nat → F) (k : Nat) : padded O x (k + (O - 1)) = x k := by
  unfold padded
  rw [if_neg (by omega), Nat.add_sub_cancel]

end

/-- Elements `off, ..., off + n - 1` of a buffer. -/
def Buf.slice (b : Buf F) (off n : Nat) : List F := (List.range n).map fun i => b.get (off + i)

omit [Zero F] [One F] [Add F] [Sub F] [Mul F] [Sample F] in
@[simp] theorem Buf.slice_length (b : Buf F) (off n : Nat) : (b.slice off n).length = n := by simp [Buf.slice]

omit [One F] [Add F] [Sub F] [Mul F] [Sample F] in
theorem Buf.seq_slice {b : Buf F} {off n k : Nat} (h : k < n) : seq (b.slice off n) k = b.get (off + k) := by
  simp [seq, Buf.slice, h]

/-! ## Invariant of a stage -/

/-- Object `i` implements stage `s` and has consumed exactly `xs` since construction or reset. -/
def Impl.Inv (s : Stage F) (i : Impl F) (xs : List F) : Prop :=
  match s, i with
  | .firUp vec t, .firUp u =>
    u.Wf ∧ u.useSse = vec ∧ u.order = t.length ∧ u.taps = Buf.ofList 0 0 t ∧
      ∀ k < t.length - 1, u.history.get k = padded t.length (seq xs) (xs.length + k)
  | .firDown vec t, .firDown d =>
    d.Wf ∧ d.useSse = vec ∧ d.order = t.length ∧ d.taps = Buf.ofList 0 0 t ∧ xs.length % 2 = 0 ∧
      d.Hist (padded t.length (evens (seq xs))) (padded t.length (odds (seq xs))) (xs.length / 2)
  | .iirUp false c, .iirUp f _ =>
    f.Wf c.length (seq c) ∧ FpuMem c.length (seq c) (seq xs) (seq xs) xs.length f.mem
  | .iirUp true c, .iirUpSse f _ =>
    f.Wf c.length (seq c) ∧
      SseMem c.length (sseCoef0 c.length (seq c)) (fun j => seq c (2 * j)) (seq xs) (seq xs) xs.length f.mem
  | .iirDown false c, .iirDown f _ =>
    f.Wf c.length (seq c) ∧ xs.length % 2 = 0 ∧
      FpuMem c.length (seq c) (odds (seq xs)) (evens (seq xs)) (xs.length / 2) f.mem
  | .iirDown true c, .iirDownSse f _ =>
    f.Wf c.length (seq c) ∧ xs.length % 2 = 0 ∧
      SseMem c.length (sseCoef0 c.length (seq c)) (fun j => seq c (2 * j)) (evens (seq xs)) (odds (seq xs))
        (xs.length / 2) f.mem
  | _, _ => False

/-- `i` is `i0` after some calls of `process_block`: queries give the same answers and `reset` the same object. -/
structure Impl.Evolves (i0 i : Impl F) : Prop where
  order : i.order = i0.order
  delay : i.delay = i0.delay
  sse : i.sseEnabled = i0.sseEnabled
  reset : i.reset = i0.reset

theorem Impl.Evolves.refl (i : Impl F) : i.Evolves i := ⟨rfl, rfl, rfl, rfl⟩

theorem Impl.Evolves.trans {a b c : Impl F} (h1 : a.Evolves b) (h2 : b.Evolves c) : a.Evolves c :=
  ⟨h2.order.trans h1.order, h2.delay.trans h1.delay, h2.sse.trans h1.sse, h2.reset.trans h1.reset⟩

/-- Number of output samples a stage produces for `n` input samples. -/
def Stage.outLen (s : Stage F) (n : Nat) : Nat :=
  match s with
  | .firUp _ _ | .iirUp _ _ => 2 * n
  | .firDown _ _ | .iirDown _ _ => n / 2

/-- Block sizes a stage accepts. -/
def Stage.inOk (bld : Build) (s : Stage F) (n : Nat) : Prop :=
  match s with
  | .firUp _ _ => n < 2 ^ 31
  | .firDown _ _ => n % 2 = 0
  | .iirUp sse _ => (sse = true ∧ bld.ndebug = true) ∨ 0 < n
  | .iirDown sse _ => n % 2 = 0 ∧ ((sse = true ∧ bld.ndebug = true) ∨ 0 < n)

/-- Number of readable samples a stage needs behind the `n` input samples. -/
def Stage.slack (s : Stage F) (n : Nat) : Nat :=
  match s with
  | .iirDown true _ => if n = 0 then 0 else 2
  | _ => 0

/-- The output relation extends: everything produced so far followed by the new slice. -/
def Stage.Extends (s : Stage F) (xs c out : List F) : Prop :=
  ∀ ys, s.Rel xs ys → s.Rel (xs ++ c) (ys ++ out)

section
omit [One F] [Sub F] [Sample F]

theorem firUp_extends {vec : Bool} {t : List F} (ht : 2 ≤ t.length) {xs c : List F} {o o' : Buf F} {ooff : Nat}
    (h : UpOut vec (seq t) t.length (padded t.length (seq (xs ++ c)))
      (xs.length + c.length + (t.length - 1)) xs.length ooff o c.length o') [One F] [Sub F] [Sample F] :
    (Stage.firUp vec t).Extends xs c (o'.slice ooff (2 * c.length)) := by
  rintro ys ⟨hl, hv⟩
  refine ⟨by simp [hl]; omega, ?_⟩
  intro m hm
  rw [List.length_append] at hm ⊢
  by_cases hlt : m < xs.length
  · obtain ⟨h1, h2⟩ := hv m hlt
    rw [seq_append_left (by omega), seq_append_left (by omega)]
    have hXY : ∀ j < xs.length + (t.length - 1), padded t.length (seq xs) j = padded t.length (seq (xs ++ c)) j :=
      fun j hj => padded_congr hj fun i hi => (seq_append_left hi).symm
    refine ⟨(h1.congr (by omega) hXY).mono (by omega), ?_⟩
    rw [h2]
    exact hXY _ (by omega)
  · have he := h.even (m - xs.length) (by omega)
    have ho := h.odd (m - xs.length) (by omega)
    rw [show xs.length + (m - xs.length) = m by omega] at he ho
    rw [show 2 * m = ys.length + 2 * (m - xs.length) by omega, Nat.add_assoc ys.length, seq_append_right,
      seq_append_right, Buf.seq_slice (by omega), Buf.seq_slice (by omega), ← Nat.add_assoc]
    exact ⟨he, ho⟩

theorem firDown_extends {vec : Bool} {t : List F} (ht : 2 ≤ t.length) {xs c : List F} {o o' : Buf F} {ooff k : Nat}
    [One F] [Sub F] [Sample F] (hx : xs.length % 2 = 0) (hc : c.length = 2 * k)
    (h : DownOut vec (seq t) t.length (padded t.length (evens (seq (xs ++ c))))
      (padded t.length (odds (seq (xs ++ c)))) (xs.length / 2 + k + (t.length - 1)) (xs.length / 2) ooff o k o') :
    (Stage.firDown vec t).Extends xs c (o'.slice ooff k) := by
  rintro ys ⟨hl, hv⟩
  refine ⟨by simp; omega, ?_⟩
  intro m hm
  simp only [List.length_append, Buf.slice_length] at hm ⊢
  by_cases hlt : m < ys.length
  · obtain ⟨v, h1, h2⟩ := hv m hlt
    rw [seq_append_left (by omega), h2]
    have hE : ∀ j < ys.length + (t.length - 1),
        padded t.length (evens (seq xs)) j = padded t.length (evens (seq (xs ++ c))) j :=
      fun j hj => padded_congr hj fun i hi => (seq_append_left (by omega)).symm
    have hO : ∀ j < ys.length + (t.length - 1),
        padded t.length (odds (seq xs)) j = padded t.length (odds (seq (xs ++ c))) j :=
      fun j hj => padded_congr hj fun i hi => (seq_append_left (by omega)).symm
    refine ⟨v, (h1.congr (by omega) hE).mono (by omega), ?_⟩
    rw [hO _ (by omega)]
  · obtain ⟨v, h1, h2⟩ := h.val (m - ys.length) (by omega)
    rw [show xs.length / 2 + (m - ys.length) = m by omega] at h1 h2
    refine ⟨v, ?_, ?_⟩
    · rwa [show ys.length + k = xs.length / 2 + k by omega]
    · rw [← h2, show seq (ys ++ o'.slice ooff k) m = seq (ys ++ o'.slice ooff k) (ys.length + (m - ys.length)) by
        congr 1; omega, seq_append_right, Buf.seq_slice (by omega)]

end

/-! ## IIR: dependence on the past only -/

section
omit [Sample F] [One F]

theorem chain_congr {a : Nat → F} {x y : Nat → F} {j n : Nat} (h : ∀ i ≤ n, x i = y i) :
    chain a x j n = chain a y j n := by
  induction j generalizing n with
  | zero => exact h n (by omega)
  | succ j ih => exact allpass_congr fun i hi => ih fun k hk => h k (by omega)

theorem prev_branch_congr {c : Nat → F} {b : Nat} {x y : Nat → F} {j n : Nat} (h : ∀ i < n, x i = y i) :
    prev (branch c b x j) n = prev (branch c b y j) n := by
  cases n with
  | zero => rfl
  | succ n => exact branch_congr fun i hi => h i (by omega)

theorem prev_chain_congr {a : Nat → F} {x y : Nat → F} {j n : Nat} (h : ∀ i < n, x i = y i) :
    prev (chain a x j) n = prev (chain a y j) n := by
  cases n with
  | zero => rfl
  | succ n => exact chain_congr fun i hi => h i (by omega)

theorem FpuMem.congr {nc : Nat} {c x0 x1 y0 y1 : Nat → F} {n : Nat} {mem : Buf F} (h : FpuMem nc c x0 x1 n mem)
    (h0 : ∀ i < n, x0 i = y0 i) (h1 : ∀ i < n, x1 i = y1 i) : FpuMem nc c y0 y1 n mem := by
  intro j
  refine ⟨fun hj => ?_, fun hj => ?_⟩
  · rw [(h j).1 hj]; exact prev_branch_congr h0
  · rw [(h j).2 hj]; exact prev_branch_congr h1

theorem SseMem.congr {nc : Nat} {a0 a1 x0 x1 y0 y1 : Nat → F} {n : Nat} {mem : Buf (V4 F)}
    (h : SseMem nc a0 a1 x0 x1 n mem) (h0 : ∀ i < n, x0 i = y0 i) (h1 : ∀ i < n, x1 i = y1 i) :
    SseMem nc a0 a1 y0 y1 n mem := by
  intro k hk
  refine ⟨?_, ?_⟩
  · rw [(h k hk).1]; exact prev_chain_congr h0
  · rw [(h k hk).2]; exact prev_chain_congr h1

theorem branchOut_congr {nc b : Nat} {c x y : Nat → F} {n : Nat} (h : ∀ i ≤ n, x i = y i) :
    branchOut nc c b x n = branchOut nc c b y n := branch_congr h

theorem chain_even_eq {nc : Nat} {c x : Nat → F} :
    chain (fun j => c (2 * j)) x ((nc + 1) / 2) = branchOut nc c 0 x := by
  unfold branchOut branchLen
  rw [branch_eq_chain]
  rfl

end

omit [Sample F] in
theorem iirBranch1_congr {sse : Bool} {nc : Nat} {c x y : Nat → F} {n : Nat} (h : ∀ i ≤ n, x i = y i) :
    iirBranch1 sse nc c x n = iirBranch1 sse nc c y n := by
  unfold iirBranch1
  split
  · exact allpass_congr fun i hi => branchOut_congr fun k hk => h k (by omega)
  · exact branchOut_congr h

omit [Sample F] in
theorem chain_odd_eq {nc : Nat} {c x : Nat → F} :
    chain (sseCoef0 nc c) x ((nc + 1) / 2) = iirBranch1 true nc c x := by
  unfold iirBranch1 branchOut branchLen
  rw [branch_eq_chain]
  have hc : ∀ j ≤ nc / 2, chain (sseCoef0 nc c) x j = chain (fun i => c (2 * i + 1)) x j := by
    intro j hj
    refine chain_congr_coef fun i hi => ?_
    unfold sseCoef0
    rw [if_pos (by omega)]
  by_cases h : nc % 2 = 1
  · rw [if_pos ⟨rfl, h⟩, show (nc + 1) / 2 = nc / 2 + 1 by omega, chain, hc _ (Nat.le_refl _),
      show (nc + 1 - 1) / 2 = nc / 2 by omega]
    congr 1
    unfold sseCoef0
    rw [if_neg (by omega)]
  · rw [if_neg (by simp [h]), show (nc + 1) / 2 = nc / 2 by omega, hc _ (Nat.le_refl _),
      show (nc + 1 - 1) / 2 = nc / 2 by omega]

theorem iirUp_extends {sse : Bool} {cs : List F} {xs c : List F} {o' : Buf F} {ooff : Nat}
    (h : ∀ i < c.length, o'.get (ooff + 2 * i) = branchOut cs.length (seq cs) 0 (seq (xs ++ c)) (xs.length + i) ∧
      o'.get (ooff + 2 * i + 1) = iirBranch1 sse cs.length (seq cs) (seq (xs ++ c)) (xs.length + i)) :
    (Stage.iirUp sse cs).Extends xs c (o'.slice ooff (2 * c.length)) := by
  rintro ys ⟨hl, hv⟩
  refine ⟨by simp [hl]; omega, ?_⟩
  intro m hm
  rw [List.length_append] at hm
  by_cases hlt : m < xs.length
  · obtain ⟨h1, h2⟩ := hv m hlt
    rw [seq_append_left (by omega), seq_append_left (by omega), h1, h2]
    exact ⟨branchOut_congr fun i hi => (seq_append_left (by omega)).symm,
      iirBranch1_congr fun i hi => (seq_append_left (by omega)).symm⟩
  · have he := h (m - xs.length) (by omega)
    rw [show xs.length + (m - xs.length) = m by omega] at he
    rw [show 2 * m = ys.length + 2 * (m - xs.length) by omega, Nat.add_assoc ys.length, seq_append_right,
      seq_append_right, Buf.seq_slice (by omega), Buf.seq_slice (by omega), ← Nat.add_assoc]
    exact he

theorem iirDown_extends {sse : Bool} {cs : List F} {xs c : List F} {o' : Buf F} {ooff k : Nat}
    (hx : xs.length % 2 = 0) (hc : c.length = 2 * k)
    (h : ∀ i < k, o'.get (ooff + i) =
        if sse then
          (iirBranch1 sse cs.length (seq cs) (evens (seq (xs ++ c))) (xs.length / 2 + i)
            + branchOut cs.length (seq cs) 0 (odds (seq (xs ++ c))) (xs.length / 2 + i)) * Sample.half
        else
          Sample.half * (branchOut cs.length (seq cs) 0 (odds (seq (xs ++ c))) (xs.length / 2 + i)
            + iirBranch1 sse cs.length (seq cs) (evens (seq (xs ++ c))) (xs.length / 2 + i))) :
    (Stage.iirDown sse cs).Extends xs c (o'.slice ooff k) := by
  rintro ys ⟨hl, hv⟩
  refine ⟨by simp; omega, ?_⟩
  intro m hm
  simp only [List.length_append, Buf.slice_length] at hm
  by_cases hlt : m < ys.length
  · have h1 := hv m hlt
    rw [seq_append_left (by omega), h1]
    rw [branchOut_congr (x := odds (seq xs)) (y := odds (seq (xs ++ c)))
        fun i hi => (seq_append_left (by omega)).symm,
      iirBranch1_congr (x := evens (seq xs)) (y := evens (seq (xs ++ c)))
        fun i hi => (seq_append_left (by omega)).symm]
  · have he := h (m - ys.length) (by omega)
    rw [show xs.length / 2 + (m - ys.length) = m by omega] at he
    rw [show seq (ys ++ o'.slice ooff k) m = seq (ys ++ o'.slice ooff k) (ys.length + (m - ys.length)) by
        congr 1; omega, seq_append_right, Buf.seq_slice (by omega)]
    exact he

theorem FpuFilter.clearBuffers_eq {f : FpuFilter F} {nc : Nat} {c : Nat → F} (hf : f.Wf nc c) :
    f.clearBuffers = .ok { f with mem := { f.mem with get := fun _ => 0 } } := by
  obtain ⟨f', h, -, h2, -⟩ := FpuFilter.clearBuffers_sat hf
  rw [h, h2]

theorem SseFilter.clearBuffers_eq {f : SseFilter F} {nc : Nat} {c : Nat → F} (hf : f.Wf nc c) :
    f.clearBuffers = .ok { f with mem := { f.mem with get := fun _ => ⟨0, 0, 0, 0⟩ } } := by
  obtain ⟨f', h, -, h2, -⟩ := SseFilter.clearBuffers_sat hf
  rw [h, h2]

theorem FpuFilter.clearBuffers_same {f g : FpuFilter F} {nc : Nat} {c : Nat → F} (hf : f.Wf nc c) (hg : g.Wf nc c)
    (h : f.Same g) : g.clearBuffers = f.clearBuffers := by
  rw [clearBuffers_eq hf, clearBuffers_eq hg]
  obtain ⟨h1, h2, h3⟩ := h
  have hl := hf.mem_len
  have hl' := hg.mem_len
  rcases f with ⟨fn, fc, ⟨fa, fl, fg⟩⟩
  rcases g with ⟨gn, gc, ⟨ga, gl, gg⟩⟩
  simp only at h1 h2 h3 hl hl'
  rw [h1, h2, h3, hl, hl']

theorem SseFilter.clearBuffers_same {f g : SseFilter F} {nc : Nat} {c : Nat → F} (hf : f.Wf nc c) (hg : g.Wf nc c)
    (h : f.Same g) : g.clearBuffers = f.clearBuffers := by
  rw [clearBuffers_eq hf, clearBuffers_eq hg]
  obtain ⟨h1, h2, h3, h4⟩ := h
  have hl := hf.mem_len
  have hl' := hg.mem_len
  rcases f with ⟨fn, fad, fc, ⟨fa, fl, fg⟩⟩
  rcases g with ⟨gn, gad, gc, ⟨ga, gl, gg⟩⟩
  simp only at h1 h2 h3 h4 hl hl'
  rw [h1, h2, h3, h4, hl, hl']

theorem Up2.reset_same {u v : Up2 F} (hu : u.Wf) (hv : v.Wf) (h1 : v.order = u.order) (h2 : v.useSse = u.useSse)
    (h3 : v.taps = u.taps) (h4 : v.sseTaps = u.sseTaps) (h5 : v.history.addr = u.history.addr) :
    v.reset = u.reset := by
  have hl := hu.hist_len
  have hl' := hv.hist_len
  rcases u with ⟨uo, us, ut, ⟨ua, ul, ug⟩, uss⟩
  rcases v with ⟨vo, vs, vt, ⟨va, vl, vg⟩, vss⟩
  simp only at h1 h2 h3 h4 h5 hl hl'
  subst h1 h2 h3 h4 h5
  simp only [Up2.reset, hl, hl']

theorem Down2.reset_same {u v : Down2 F} (hu : u.Wf) (hv : v.Wf) (h : u.SameParams v) : v.reset = u.reset := by
  obtain ⟨h1, h2, h3, h4, h5, h6⟩ := h
  have hl := hu.even_len
  have hl' := hv.even_len
  have hm := hu.odd_len
  have hm' := hv.odd_len
  rcases u with ⟨uo, us, ut, ⟨ua, ul, ug⟩, ⟨ua2, ul2, ug2⟩, uss⟩
  rcases v with ⟨vo, vs, vt, ⟨va, vl, vg⟩, ⟨va2, vl2, vg2⟩, vss⟩
  simp only at h1 h2 h3 h4 h5 h6 hl hl' hm hm'
  subst h1 h2 h3 h4 h5 h6
  simp only [Down2.reset, hl, hl', hm, hm']

/-- What one call of a stage's `process_block` achieves. -/
structure Impl.Post (s : Stage F) (i : Impl F) (xs c : List F) (output : Buf F) (ooff : Nat)
    (r : Impl F × Buf F) : Prop where
  inv : r.1.Inv s (xs ++ c)
  evolves : i.Evolves r.1
  len : r.2.len = output.len
  addr : r.2.addr = output.addr
  frame : ∀ j, j < ooff ∨ ooff + s.outLen c.length ≤ j → r.2.get j = output.get j
  ext : s.Extends xs c (r.2.slice ooff (s.outLen c.length))

/-- **One call of one stage.** -/
theorem Impl.processBlock_sat {bld : Build} {st : Stack F} {s : Stage F} {i : Impl F} {xs c : List F}
    (h : i.Inv s xs) {input output : Buf F} {ioff ooff : Nat} (hok : s.inOk bld c.length)
    (hin : ioff + c.length + s.slack c.length ≤ input.len) (hc : ∀ k < c.length, input.get (ioff + k) = seq c k)
    (hout : ooff + s.outLen c.length ≤ output.len) :
    Sat (i.processBlock bld st input ioff c.length output ooff) (Impl.Post s i xs c output ooff) := by
  unfold Impl.Inv at h
  split at h
  · -- FIR up
    rename_i vec t u
    obtain ⟨hw, hs, ho, ht, hh⟩ := h
    simp only [Stage.slack, Stage.outLen, Stage.inOk] at hin hout hok
    have hge := hw.order_ge
    have htg : u.taps.get = seq t := by rw [ht]; rfl
    unfold Impl.processBlock
    refine sat_bind (Up2.processBlock_sat hw (p := xs.length) (X := padded t.length (seq (xs ++ c))) hok ?_
      ⟨by omega, ?_⟩ hout) ?_
    · intro k hk
      rw [ho] at hk
      rw [hh k hk]
      exact padded_congr (N := xs.length) (by omega) fun i hi => (seq_append_left hi).symm
    · intro k hk
      rw [hc k hk, ho, show xs.length + (t.length - 1) + k = (xs.length + k) + (t.length - 1) by omega, padded_add,
        seq_append_right]
    · rintro ⟨v, o⟩ ⟨w1, w2, w3, w4, w5, w6, w7, w8⟩
      simp only at w1 w2 w3 w4 w5 w6 w7 w8
      rw [ho, htg, hs] at w8
      refine sat_ok ⟨⟨w1, w3.trans hs, w2.trans ho, w4.trans ht, ?_⟩, ⟨?_, ?_, ?_, ?_⟩, w8.len, w8.addr, w8.frame, ?_⟩
      · intro k hk
        rw [w7 k (by omega), List.length_append]
      · exact w2
      · simp only [Impl.delay, w2]
      · exact w3
      · simp only [Impl.reset]
        rw [Up2.reset_same hw w1 w2 w3 w4 w5 w6]
      · exact firUp_extends (by omega) w8
  · -- FIR down
    rename_i vec t d
    obtain ⟨hw, hs, ho, ht, hx, hh⟩ := h
    simp only [Stage.slack, Stage.outLen, Stage.inOk] at hin hout hok
    have hge := hw.order_ge
    have htg : d.taps.get = seq t := by rw [ht]; rfl
    obtain ⟨k, hk⟩ : ∃ k, c.length = 2 * k := ⟨c.length / 2, by omega⟩
    have hk2 : c.length / 2 = k := by omega
    unfold Impl.processBlock
    simp only [hk]
    refine sat_bind (Down2.processBlock_sat hw (p := xs.length / 2) (XE := padded t.length (evens (seq (xs ++ c))))
      (XO := padded t.length (odds (seq (xs ++ c)))) ?_ (by omega) ?_ ?_ (by omega)) ?_
    · constructor
      · intro j hj
        rw [hh.1 j hj]
        refine padded_congr (N := xs.length / 2) (by omega) fun i hi => ?_
        exact (seq_append_left (by omega)).symm
      · intro j hj
        rw [hh.2 j hj]
        refine padded_congr (N := xs.length / 2) (by omega) fun i hi => ?_
        exact (seq_append_left (by omega)).symm
    · intro i hi
      rw [hc _ (by omega), ho, show xs.length / 2 + (t.length - 1) + i = (xs.length / 2 + i) + (t.length - 1) by omega,
        padded_add, evens, show 2 * (xs.length / 2 + i) = xs.length + 2 * i by omega, seq_append_right]
    · intro i hi
      rw [Nat.add_assoc, hc _ (by omega), ho,
        show xs.length / 2 + (t.length - 1) + i = (xs.length / 2 + i) + (t.length - 1) by omega,
        padded_add, odds, show 2 * (xs.length / 2 + i) + 1 = xs.length + (2 * i + 1) by omega, seq_append_right]
    · rintro ⟨v, o⟩ ⟨w1, w2, w3, w4⟩
      simp only at w1 w2 w3 w4
      rw [ho, htg, hs] at w4
      have hsp := w2
      obtain ⟨p1, p2, p3, p4, p5, p6⟩ := w2
      refine sat_ok ⟨⟨w1, p2.trans hs, p1.trans ho, p3.trans ht, by rw [List.length_append]; omega, ?_⟩,
        ⟨?_, ?_, ?_, ?_⟩, w4.len, w4.addr, ?_, ?_⟩
      · rwa [List.length_append, show (xs.length + c.length) / 2 = xs.length / 2 + k by omega]
      · exact p1
      · simp only [Impl.delay, p1]
      · exact p2
      · simp only [Impl.reset]
        rw [Down2.reset_same hw w1 hsp]
      · intro j hj
        simp only [Stage.outLen, hk2] at hj
        exact w4.frame j hj
      · simp only [Stage.outLen, hk2]
        exact firDown_extends (by omega) hx hk w4
  · -- IIR up, FPU
    rename_i cs f dl
    obtain ⟨hw, hm⟩ := h
    simp only [Stage.slack, Stage.outLen, Stage.inOk] at hin hout hok
    have hpos : 0 < c.length := by simpa using hok
    unfold Impl.processBlock
    refine sat_bind (FpuFilter.upBlock_sat (n := xs.length) (x := seq (xs ++ c)) hw
      (hm.congr (fun i hi => (seq_append_left hi).symm) fun i hi => (seq_append_left hi).symm) hpos (by omega)
      (fun i hi => by rw [hc i hi, seq_append_right]) hout) ?_
    rintro ⟨g, o⟩ ⟨w1, w2, w3, w4, w5, w6, w7⟩
    simp only at w1 w2 w3 w4 w5 w6 w7
    refine sat_ok ⟨⟨w1, by rwa [List.length_append]⟩, ⟨w2.1, rfl, rfl, ?_⟩, w4, w5, w7, ?_⟩
    · simp only [Impl.reset]
      rw [FpuFilter.clearBuffers_same hw w1 w2]
    · exact iirUp_extends fun i hi => by simpa [iirBranch1] using w6 i hi
  · -- IIR up, SSE
    rename_i cs f dl
    obtain ⟨hw, hm⟩ := h
    simp only [Stage.slack, Stage.outLen, Stage.inOk, true_and] at hin hout hok
    unfold Impl.processBlock
    refine sat_bind (SseFilter.upBlock_sat (n := xs.length) (x := seq (xs ++ c)) hw
      (hm.congr (fun i hi => (seq_append_left hi).symm) fun i hi => (seq_append_left hi).symm) hok (by omega)
      (fun i hi => by rw [hc i hi, seq_append_right]) hout) ?_
    rintro ⟨g, o⟩ ⟨w1, w2, w3, w4, w5, w6, w7⟩
    simp only at w1 w2 w3 w4 w5 w6 w7
    refine sat_ok ⟨⟨w1, by rwa [List.length_append]⟩, ⟨w2.1, rfl, rfl, ?_⟩, w4, w5, w7, ?_⟩
    · simp only [Impl.reset]
      rw [SseFilter.clearBuffers_same hw w1 w2]
    · exact iirUp_extends fun i hi => by simpa only [chain_even_eq, chain_odd_eq] using w6 i hi
  · -- IIR down, FPU
    rename_i cs f dl
    obtain ⟨hw, hx, hm⟩ := h
    simp only [Stage.slack, Stage.outLen, Stage.inOk] at hin hout hok
    obtain ⟨k, hk⟩ : ∃ k, c.length = 2 * k := ⟨c.length / 2, by omega⟩
    have hk2 : c.length / 2 = k := by omega
    have hpos : 0 < k := by
      have : 0 < c.length := by simpa using hok.2
      omega
    unfold Impl.processBlock
    simp only [hk2]
    refine sat_bind (FpuFilter.downBlock_sat (n := xs.length / 2) (xe := evens (seq (xs ++ c)))
      (xo := odds (seq (xs ++ c))) hw
      (hm.congr (fun i hi => (seq_append_left (by omega)).symm) fun i hi => (seq_append_left (by omega)).symm) hpos
      (by omega) (fun i hi => ?_) (fun i hi => ?_) (by omega)) ?_
    · rw [hc _ (by omega), evens, show 2 * (xs.length / 2 + i) = xs.length + 2 * i by omega, seq_append_right]
    · rw [Nat.add_assoc, hc _ (by omega), odds,
        show 2 * (xs.length / 2 + i) + 1 = xs.length + (2 * i + 1) by omega, seq_append_right]
    rintro ⟨g, o⟩ ⟨w1, w2, w3, w4, w5, w6, w7⟩
    simp only at w1 w2 w3 w4 w5 w6 w7
    refine sat_ok ⟨⟨w1, by rw [List.length_append]; omega, ?_⟩, ⟨w2.1, rfl, rfl, ?_⟩, w4, w5, ?_, ?_⟩
    · rwa [List.length_append, show (xs.length + c.length) / 2 = xs.length / 2 + k by omega]
    · simp only [Impl.reset]
      rw [FpuFilter.clearBuffers_same hw w1 w2]
    · simp only [Stage.outLen, hk2]
      exact w7
    · simp only [Stage.outLen, hk2]
      exact iirDown_extends hx hk fun i hi => by simpa [iirBranch1] using w6 i hi
  · -- IIR down, SSE
    rename_i cs f dl
    obtain ⟨hw, hx, hm⟩ := h
    simp only [Stage.slack, Stage.outLen, Stage.inOk, true_and] at hin hout hok
    obtain ⟨k, hk⟩ : ∃ k, c.length = 2 * k := ⟨c.length / 2, by omega⟩
    have hk2 : c.length / 2 = k := by omega
    unfold Impl.processBlock
    simp only [hk2]
    refine sat_bind (SseFilter.downBlock_sat (n := xs.length / 2) (xe := evens (seq (xs ++ c)))
      (xo := odds (seq (xs ++ c))) hw
      (hm.congr (fun i hi => (seq_append_left (by omega)).symm) fun i hi => (seq_append_left (by omega)).symm)
      (hok.2.imp id fun h => by omega) (fun hpos => ?_) (fun i hi => ?_) (fun i hi => ?_) (by omega)) ?_
    · rw [if_neg (by omega)] at hin
      omega
    · rw [hc _ (by omega), evens, show 2 * (xs.length / 2 + i) = xs.length + 2 * i by omega, seq_append_right]
    · rw [Nat.add_assoc, hc _ (by omega), odds,
        show 2 * (xs.length / 2 + i) + 1 = xs.length + (2 * i + 1) by omega, seq_append_right]
    rintro ⟨g, o⟩ ⟨w1, w2, w3, w4, w5, w6, w7⟩
    simp only at w1 w2 w3 w4 w5 w6 w7
    refine sat_ok ⟨⟨w1, by rw [List.length_append]; omega, ?_⟩, ⟨w2.1, rfl, rfl, ?_⟩, w4, w5, ?_, ?_⟩
    · rwa [List.length_append, show (xs.length + c.length) / 2 = xs.length / 2 + k by omega]
    · simp only [Impl.reset]
      rw [SseFilter.clearBuffers_same hw w1 w2]
    · simp only [Stage.outLen, hk2]
      exact w7
    · simp only [Stage.outLen, hk2]
      exact iirDown_extends hx hk fun i hi => by
        simpa only [if_true, chain_even_eq, chain_odd_eq] using w6 i hi
  · exact h.elim

end Panda
