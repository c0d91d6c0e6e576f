import Verif.Props.Gain
import Verif.Proofs.Noble

/-!
# Filtering before and after resampling (C112)

Exact arithmetic in any field of characteristic 0, any constants (they may be rounded).
-/

set_option linter.unusedSectionVars false

namespace Panda

open Examples Finset

section Exact

variable {K : Type} [Field K] [CharZero K] [Sample K]

/-- **C112** (UP) If a signal is convolved with a kernel `g`, what an upsampler makes of it is convolved with `g`, the samples of the kernel being
`ratio` apart. -/
theorem C112_up (cfg : Config) (hv : cfg.Valid) (hm : cfg.mode = .up) (g : ℕ → K)
    (ops ops' : List (Op K)) (hc : ∀ op ∈ ops, cfg.OpOk op) (hc' : ∀ op ∈ ops', cfg.OpOk op)
    (r r' : Resampler K) (os os' : List (Option (Buf K)))
    (h : cfg.session ops = .ok (r, os)) (h' : cfg.session ops' = .ok (r', os'))
    (hl : (fed ops').length ≤ (fed ops).length)
    (hx : ∀ n < (fed ops').length, seq (fed ops') n = ∑ k ∈ range (n + 1), g k * seq (fed ops) (n - k)) :
    ∀ n < (cfg.produced ops' os').length,
      seq (cfg.produced ops' os') n = ∑ k ∈ range (n / cfg.ratio + 1), g k * seq (cfg.produced ops os) (n - cfg.ratio * k) := by
  intro n hn
  have hup : ∀ s ∈ cfg.stages (F := K), s.up = true := fun s hs => by rw [Config.stages_up s hs, hm]; rfl
  have hlen := Config.stages_length (K := K) hv
  obtain ⟨hpl, ho⟩ := Config.session_op hv hc h
  obtain ⟨hpl', -⟩ := Config.session_op hv hc' h'
  have e := Config.session_op_of hv hc' h' (x := cvR 1 g (seq (fed ops))) (fun i hi => by
    rw [hx i hi, cvR, Nat.div_one]
    exact sum_congr rfl fun k _ => by rw [Nat.one_mul]) n hn
  have hle : (cfg.produced ops' os').length ≤ (cfg.produced ops os).length := by
    rw [hpl, hpl']
    simp only [Config.outLen, hm]
    exact Nat.mul_le_mul_right _ hl
  rw [e, Config.op, noble_up hup (fun s hs v t e => (Config.stages_taps s hs v t e).1) Nat.one_pos, hlen, Nat.mul_one, cvR]
  refine sum_congr rfl fun k _ => ?_
  rw [ho _ (by omega)]
  rfl

/-- **C112** (DOWN) If a signal is convolved with a kernel whose samples are `ratio` apart, what a downsampler makes of it is convolved with the kernel
at the lower rate. -/
theorem C112_down (cfg : Config) (hv : cfg.Valid) (hm : cfg.mode = .down) (g : ℕ → K)
    (ops ops' : List (Op K)) (hc : ∀ op ∈ ops, cfg.OpOk op) (hc' : ∀ op ∈ ops', cfg.OpOk op)
    (r r' : Resampler K) (os os' : List (Option (Buf K)))
    (h : cfg.session ops = .ok (r, os)) (h' : cfg.session ops' = .ok (r', os'))
    (hl : (fed ops').length ≤ (fed ops).length)
    (hx : ∀ n < (fed ops').length, seq (fed ops') n = ∑ k ∈ range (n / cfg.ratio + 1), g k * seq (fed ops) (n - cfg.ratio * k)) :
    ∀ n < (cfg.produced ops' os').length,
      seq (cfg.produced ops' os') n = ∑ k ∈ range (n + 1), g k * seq (cfg.produced ops os) (n - k) := by
  intro n hn
  have hup : ∀ s ∈ cfg.stages (F := K), s.up = false := fun s hs => by rw [Config.stages_up s hs, hm]; rfl
  have hlen := Config.stages_length (K := K) hv
  obtain ⟨hpl, ho⟩ := Config.session_op hv hc h
  obtain ⟨hpl', -⟩ := Config.session_op hv hc' h'
  have e := Config.session_op_of hv hc' h' (x := cvR cfg.ratio g (seq (fed ops))) (fun i hi => (hx i hi).symm) n hn
  have hle : (cfg.produced ops' os').length ≤ (cfg.produced ops os).length := by
    rw [hpl, hpl']
    simp only [Config.outLen, hm]
    exact Nat.div_le_div_right hl
  have key := noble_down hup (fun s hs v t e => (Config.stages_taps s hs v t e).1) Nat.one_pos g (seq (fed ops))
  rw [hlen, Nat.mul_one] at key
  rw [e, Config.op, key, cvR, Nat.div_one]
  refine sum_congr rfl fun k _ => ?_
  rw [Nat.one_mul, ho _ (by omega)]
  rfl

end Exact

/-- One call for any samples. -/
private theorem runs (m : Mode) (fl : Filter) (l : List Rat) (hl : l.length < 2 ^ 20) (h4 : l.length % 4 = 0) :
    ∃ (ops : List (Op Rat)) (r : Resampler Rat) (os : List (Option (Buf Rat))), (cfg m 4 20 true fl).Valid ∧
      (∀ op ∈ ops, (cfg m 4 20 true fl).OpOk op) ∧ (cfg m 4 20 true fl).session ops = .ok (r, os) ∧ fed ops = l := by
  have hv : (cfg m 4 20 true fl).Valid := by cases m <;> cases fl <;> exact ⟨by decide, by decide, by decide⟩
  let c : Call Rat :=
    { st := someStack, input := { addr := 4, len := l.length + 2, get := seq l }, n := l.length, output := outBuf (4 * l.length) }
  have hc : ∀ op ∈ [Op.process c], (cfg m 4 20 true fl).OpOk op := by
    intro op hop
    simp only [List.mem_cons, List.not_mem_nil, or_false] at hop
    subst hop
    refine ⟨by show l.length < _; omega, by show l.length ≤ l.length + 2; omega, ?_, fun _ => h4, by simp [cfg], by simp [cfg],
      fun _ _ _ _ _ => le_rfl⟩
    cases m
    · show l.length * 4 ≤ 4 * l.length
      omega
    · show l.length / 4 ≤ 4 * l.length
      omega
  obtain ⟨r, os, h, -⟩ := C04_output_frame _ hv _ hc
  refine ⟨_, r, os, hv, hc, h, ?_⟩
  show [] ++ (List.range l.length).map (seq l) = l
  rw [List.nil_append]
  exact List.ext_getElem (by simp) fun i h1 h2 => by simp [seq_lt h2]

/-- Sessions for any signal and any kernel, by 4, FIR and IIR. -/
example (g : ℕ → Rat) (l : List Rat) (hl : l.length < 2 ^ 20) (h4 : l.length % 4 = 0) (fl : Filter) :
    (∃ (ops ops' : List (Op Rat)) (q q' : Resampler Rat × List (Option (Buf Rat))),
      (cfg .up 4 20 true fl).session ops = .ok q ∧ (cfg .up 4 20 true fl).session ops' = .ok q' ∧ fed ops = l ∧
      ∀ n < ((cfg .up 4 20 true fl).produced ops' q'.2).length, seq ((cfg .up 4 20 true fl).produced ops' q'.2) n =
        ∑ k ∈ range (n / 4 + 1), g k * seq ((cfg .up 4 20 true fl).produced ops q.2) (n - 4 * k)) ∧
    (∃ (ops ops' : List (Op Rat)) (q q' : Resampler Rat × List (Option (Buf Rat))),
      (cfg .down 4 20 true fl).session ops = .ok q ∧ (cfg .down 4 20 true fl).session ops' = .ok q' ∧ fed ops = l ∧
      ∀ n < ((cfg .down 4 20 true fl).produced ops' q'.2).length, seq ((cfg .down 4 20 true fl).produced ops' q'.2) n =
        ∑ k ∈ range (n + 1), g k * seq ((cfg .down 4 20 true fl).produced ops q.2) (n - k)) := by
  have hq (f : ℕ → Rat) (i : ℕ) (hi : i < ((List.range l.length).map f).length) : seq ((List.range l.length).map f) i = f i := by
    rw [seq_lt hi]
    simp
  constructor
  · obtain ⟨ops, r, os, hv, hc, h, hfed⟩ := runs .up fl l hl h4
    obtain ⟨ops', r', os', -, hc', h', hfed'⟩ := runs .up fl ((List.range l.length).map fun n => ∑ k ∈ range (n + 1), g k * seq l (n - k))
      (by simpa using hl) (by simpa using h4)
    exact ⟨ops, ops', _, _, h, h', hfed, C112_up _ hv rfl g ops ops' hc hc' r r' os os' h h' (by rw [hfed, hfed']; simp)
      (by rw [hfed, hfed']; exact fun n hn => hq _ n hn)⟩
  · obtain ⟨ops, r, os, hv, hc, h, hfed⟩ := runs .down fl l hl h4
    obtain ⟨ops', r', os', -, hc', h', hfed'⟩ := runs .down fl ((List.range l.length).map fun n => ∑ k ∈ range (n / 4 + 1), g k * seq l (n - 4 * k))
      (by simpa using hl) (by simpa using h4)
    exact ⟨ops, ops', _, _, h, h', hfed, C112_down _ hv rfl g ops ops' hc hc' r r' os os' h h' (by rw [hfed, hfed']; simp)
      (by rw [hfed, hfed']; exact fun n hn => hq _ n hn)⟩

end Panda
