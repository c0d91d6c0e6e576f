import Verif.Props.Polarity
import Verif.Proofs.Recast

/-!
# Changing the level by powers of two, without underflow and overflow (C88)
-/

namespace Panda

open Examples

private theorem mk_scale (k : ℤ) (q : ℚ) : Fl.mk float24 (q * 2 ^ k) = (Fl.mk float24 q).scale k := by
  have h : ∀ x, Fl.mk float24 x = Fl.fin (rnd24 x) := fun x => (if_pos rfl).trans (congrArg some (rndU_eq_rnd24 x))
  rw [h, h, rnd24_scale]
  rfl

private theorem op_scale (k : ℤ) {f : ℚ → ℚ → ℚ} (g h : ℚ → ℚ) (a b : Fl float24) (hf : ∀ x y, f (g x) (h y) = f x y * 2 ^ k) :
    Fl.op f (Option.map g a) (Option.map h b) = (Fl.op f a b).scale k := by
  cases a <;> cases b <;> first | rfl | skip
  show Fl.mk float24 _ = (Fl.mk float24 _).scale k
  rw [hf, mk_scale]

private theorem homog_scale (k : ℤ) : Homog (Fl.scale (S := float24) k) where
  zero := by show some ((0 : ℚ) * 2 ^ k) = some 0; rw [zero_mul]
  add a b := (op_scale k (fun q => q * 2 ^ k) (fun q => q * 2 ^ k) a b fun x y => by ring).symm
  sub a b := (op_scale k (fun q => q * 2 ^ k) (fun q => q * 2 ^ k) a b fun x y => by ring).symm
  mul a b := by
    have := (op_scale k (f := (· * ·)) (fun q => q * 2 ^ k) id a b fun x y => by simp only [id]; ring).symm
    rwa [Option.map_id] at this
  half a := by
    have := (op_scale k (f := (· * ·)) id (fun q => q * 2 ^ k) (some (1 / 2)) a fun x y => by simp only [id]; ring).symm
    rwa [Option.map_id] at this

/-- **C88** For every configuration, FIR and IIR, with and without SSE: multiplying all samples by a power of two multiplies all output samples by
it, exactly, in arithmetic with 24 bits and any exponent. So the only cause of differences in binary32 is underflow and overflow. -/
theorem C88_any_exponent_partial (cfg : Config) (hv : cfg.Valid) (k : ℤ) (ops ops' : List (Op (Fl float24))) (hc : ∀ op ∈ ops, cfg.OpOk op)
    (hs : SameShape ops ops') (hx : fed ops' = (fed ops).map (Fl.scale k)) :
    ∃ r os r' os', cfg.session ops = .ok (r, os) ∧ cfg.session ops' = .ok (r', os') ∧
      cfg.produced ops' os' = (cfg.produced ops os).map (Fl.scale k) :=
  Config.session_homog hv (homog_scale k) hc hs hx

/-- The arithmetic of the theorem is the one of binary32 for results that do not underflow or overflow. -/
theorem C88_any_exponent_binary32 (q : ℚ) (h1 : 2⁻¹ ^ 126 ≤ |q|) (h2 : |rnd32 q| < 2 ^ 128) :
    (Fl.mk binary32 q : Option ℚ) = (Fl.mk float24 q : Option ℚ) :=
  mk_binary32_eq q h1 h2

/-- **C88** In binary32, for every configuration, FIR and IIR, with and without SSE: multiplying all samples by a power of two multiplies
every output sample by it, exactly, that can be computed both before and after without underflow and overflow on the way (it is finite in
`normal32`).
Missing: output samples for which a result below `2^-125` occurs on the way; the claim is false for some (`C88_false_tiny`). -/
theorem C88_no_underflow_partial (cfg : Config) (hv : cfg.Valid) (k : ℤ) (ops ops' : List (Op F32)) (hc : ∀ op ∈ ops, cfg.OpOk op)
    (hs : SameShape ops ops') (hx : fed ops' = (fed ops).map (Fl.scale k)) :
    ∃ r os r' os' rn osn rn' osn', cfg.session ops = .ok (r, os) ∧ cfg.session ops' = .ok (r', os') ∧
      cfg.session (ops.map Op.recast : List (Op (Fl normal32))) = .ok (rn, osn) ∧
      cfg.session (ops'.map Op.recast : List (Op (Fl normal32))) = .ok (rn', osn') ∧
      ∀ n y y', seq (cfg.produced (ops.map Op.recast) osn) n = Fl.fin y → seq (cfg.produced (ops'.map Op.recast) osn') n = Fl.fin y' →
        seq (cfg.produced ops os) n = Fl.fin y ∧ seq (cfg.produced ops' os') n = Fl.fin (y * 2 ^ k) := by
  have hc' := hs.opOk hc
  obtain ⟨r, os, h1, -⟩ := Config.session_spec hv hc
  obtain ⟨r', os', h1', -⟩ := Config.session_spec hv hc'
  obtain ⟨rn, osn, h2, -⟩ := Config.session_spec hv (recast_ok (T := normal32) hc)
  obtain ⟨rn', osn', h2', -⟩ := Config.session_spec hv (recast_ok (T := normal32) hc')
  obtain ⟨ru, osu, ru', osu', h3, h3', h4⟩ := C88_any_exponent_partial cfg hv k (ops.map Op.recast) (ops'.map Op.recast) (recast_ok hc)
    (recast_shape hs) (by rw [recast_fed, recast_fed]; exact hx)
  refine ⟨r, os, r', os', rn, osn, rn', osn', h1, h1', h2, h2', fun n y y' e e' => ?_⟩
  have b1 := session_recast (T := binary32) same_binary32 hv hc h2 (by rw [recast_self]; exact h1) n y e
  have b2 := session_recast (T := binary32) same_binary32 hv hc' h2' (by rw [recast_self]; exact h1') n y' e'
  have u1 := session_recast same_float24 hv hc h2 h3 n y e
  have u2 := session_recast same_float24 hv hc' h2' h3' n y' e'
  rw [recast_self] at b1 b2
  refine ⟨b1, ?_⟩
  have h5 : seq (cfg.produced (ops'.map Op.recast) osu') n = (seq (cfg.produced (ops.map Op.recast) osu) n).scale k := by
    rw [h4]
    unfold seq
    rw [List.getD_eq_getElem?_getD, List.getD_eq_getElem?_getD, List.getElem?_map]
    cases (cfg.produced (ops.map Op.recast) osu)[n]?
    · exact (homog_scale k).zero.symm
    · rfl
  rw [h5] at u2
  have h6 : (Fl.scale k (Fl.fin y : Fl float24) : Option ℚ) = some y' := by
    have u1 : seq (cfg.produced (ops.map Op.recast) osu) n = Fl.fin y := u1
    rw [u1] at u2
    exact u2
  have h7 : y * 2 ^ k = y' := Option.some.inj h6
  rw [h7]
  exact b2

/-- The first output sample in `normal32`. -/
private def normalOut (c : Config) (q : ℚ) : Fl normal32 :=
  match c.session [Op.recast (Op.process (tinyCall q c.mode))] with
  | .ok s => seq (c.produced [Op.recast (Op.process (tinyCall q c.mode))] s.2) 0
  | .error _ => none

/-- Constant samples 1 and `2^-60`: there is a first output sample in `normal32`, and it is not zero; FIR and IIR, with and without SSE. -/
example : ∀ m ∈ [Mode.up, .down], ∀ s ∈ [true, false], ∀ f ∈ [Filter.fir, .iir], ∀ q ∈ [1, 2⁻¹ ^ 60],
    Option.any (α := ℚ) (fun y => y ≠ 0) (normalOut (cfg m 4 16 s f) q) = true := by
  decide +kernel

/-- A call with the samples `x`. -/
private def levelCall (x : ℕ → ℚ) : Call (Fl float24) :=
  { st := { block16 := 5, tmpAddr := 4, tmp2Addr := 8, junk := fun _ => 0 },
    input := { addr := 4, len := 64, get := fun i => Fl.fin (x i) }, n := 64,
    output := { addr := 64, len := 512, get := fun _ => 0 } }

/-- IIR with SSE, a ramp, and the same 6000 dB below. -/
example : ∃ r os r' os', (cfg .up 8 12 true .iir).session [Op.process (levelCall fun i => i)] = .ok (r, os) ∧
    (cfg .up 8 12 true .iir).session [Op.process (levelCall fun i => i * 2 ^ (-1000 : ℤ))] = .ok (r', os') ∧
    (cfg .up 8 12 true .iir).produced [Op.process (levelCall fun i => i * 2 ^ (-1000 : ℤ))] os' =
      ((cfg .up 8 12 true .iir).produced [Op.process (levelCall fun i => i)] os).map (Fl.scale (-1000)) := by
  refine C88_any_exponent_partial _ ⟨by decide, by decide, by decide⟩ (-1000) _ _ ?_ ⟨⟨rfl, rfl, rfl, rfl, rfl, rfl, rfl, rfl⟩, trivial⟩ ?_
  · intro op hop
    simp only [List.mem_cons, List.not_mem_nil, or_false] at hop
    subst hop
    exact ⟨by decide, by decide, by decide, by decide, by decide, by decide, by decide⟩
  · have ef : ∀ x, fed [Op.process (levelCall x)] = (List.range 64).map fun i => Fl.fin (x i) := by
      intro x
      simp [fed, fedStep, levelCall, Call.samples]
    rw [ef, ef, List.map_map]
    rfl

/-- The smallest normal number. -/
example : (Fl.mk binary32 (1 / 2 ^ 126) : Option ℚ) = (Fl.mk float24 (1 / 2 ^ 126) : Option ℚ) :=
  C88_any_exponent_binary32 _ (by rw [abs_of_pos (by norm_num)]; norm_num) (by decide +kernel)

end Panda
