import Mathlib.Analysis.SpecificLimits.Basic
import Mathlib.Analysis.Real.Pi.Bounds
import Mathlib.Tactic.Linarith
import Mathlib.Tactic.NormNum
import Mathlib.Tactic.Positivity
import Mathlib.Tactic.Ring
import Mathlib.Tactic.FieldSimp
import Mathlib.Tactic.Push
import Verif.Model.Designer

/-! # Lemmas about the model of the filter designer -/

namespace Panda.Designer

theorem ok_bind {α β : Type} (a : α) (f : α → Res β) : ((.ok a : Res α) >>= f) = f a := rfl
theorem err_bind {α β : Type} (e : UB) (f : α → Res β) : ((.error e : Res α) >>= f) = .error e := rfl
theorem pure_bind' {α β : Type} (a : α) (f : α → Res β) : ((pure a : Res α) >>= f) = f a := rfl
theorem pure_eq {α : Type} (a : α) : (pure a : Res α) = .ok a := rfl

/-! ## Loops -/

section loops

variable {σ : Type} {cond : σ → Bool} {body : σ → Res σ}

theorem whileF_mono {n m : ℕ} (h : n ≤ m) {s : σ} (hn : whileF cond body n s ≠ .error .nonterm) :
    whileF cond body m s = whileF cond body n s := by
  induction n generalizing m s with
  | zero =>
    unfold whileF at hn
    split at hn
    · exact absurd rfl hn
    · rename_i hc
      cases m <;> simp [whileF, hc]
  | succ n ih =>
    cases m with
    | zero => omega
    | succ m =>
      unfold whileF at hn ⊢
      split
      · rename_i hc
        rw [if_pos hc] at hn
        cases hb : body s with
        | error e => rfl
        | ok s' =>
          rw [hb, ok_bind] at hn
          rw [ok_bind, ok_bind]
          exact ih (by omega) hn
      · rfl

theorem whileU_of {n : ℕ} {s : σ} (hn : whileF cond body n s ≠ .error .nonterm) : whileU cond body s = whileF cond body n s := by
  classical
  have h : ∃ fuel, whileF cond body fuel s ≠ .error .nonterm := ⟨n, hn⟩
  unfold whileU
  rw [dif_pos h]
  convert (whileF_mono (Nat.find_min' h hn) (Nat.find_spec h)).symm

/-- A loop can be unrolled. -/
theorem whileU_step (s : σ) : whileU cond body s = if cond s then body s >>= whileU cond body else pure s := by
  by_cases hc : cond s
  · rw [if_pos hc]
    cases hb : body s with
    | error e =>
      rw [err_bind]
      by_cases he : e = .nonterm
      · subst he
        unfold whileU
        rw [dif_neg]
        rintro ⟨n, hn⟩
        apply hn
        cases n <;> simp [whileF, hc, hb, err_bind]
      · rw [whileU_of (n := 1) (by simp [whileF, hc, hb, err_bind, he])]
        simp [whileF, hc, hb, err_bind]
    | ok s' =>
      rw [ok_bind]
      by_cases h : ∃ n, whileF cond body n s' ≠ .error .nonterm
      · obtain ⟨n, hn⟩ := h
        rw [whileU_of hn]
        have e : whileF cond body (n + 1) s = whileF cond body n s' := by
          simp [whileF, hc, hb, ok_bind]
        rw [← e]
        exact whileU_of (by rw [e]; exact hn)
      · have h' : ¬ ∃ n, whileF cond body n s ≠ .error .nonterm := by
          rintro ⟨n, hn⟩
          cases n with
          | zero => simp [whileF, hc] at hn
          | succ n =>
            simp only [whileF, hc, if_true, hb, ok_bind] at hn
            exact h ⟨n, hn⟩
        unfold whileU
        rw [dif_neg h, dif_neg h']
  · rw [if_neg hc]
    rw [whileU_of (n := 0) (by simp [whileF, hc, pure_eq])]
    simp [whileF, hc]

theorem whileU_nonterm {I : σ → Prop} (h : ∀ s, I s → cond s = true ∧ ∃ s', body s = .ok s' ∧ I s') {s : σ} (hs : I s) :
    whileU cond body s = .error .nonterm := by
  unfold whileU
  rw [dif_neg]
  rintro ⟨n, hn⟩
  apply hn
  clear hn
  induction n generalizing s with
  | zero =>
    simp [whileF, (h s hs).1]
  | succ n ih =>
    obtain ⟨hc, s', hb, hs'⟩ := h s hs
    simp only [whileF, hc, if_true, hb, ok_bind]
    exact ih hs'

end loops

theorem assertP_ok {bld : Build} {c : Prop} (h : c) : assertP bld c = .ok () := by
  simp [assertP, Build.assert, h, pure_eq]

theorem assertP_false {bld : Build} (hb : bld.ndebug = false) {c : Prop} (h : ¬ c) : assertP bld c = .error .assertFail := by
  simp [assertP, Build.assert, h, hb]

theorem assertP_ndebug {bld : Build} (hb : bld.ndebug = true) (c : Prop) : assertP bld c = .ok () := by
  simp [assertP, Build.assert, hb, pure_eq]

theorem int32_ok {x : ℤ} (h0 : -2 ^ 31 ≤ x) (h1 : x < 2 ^ 31) : int32 x = .ok x := by
  unfold int32
  rw [if_pos ⟨h0, h1⟩]
  rfl

theorem assertI_ok {bld : Build} {c x : ℤ} (h0 : -2 ^ 31 ≤ x) (h1 : x < 2 ^ 31) (h : c < x) :
    assertLt bld c x = .ok () := by
  unfold assertLt
  split
  · rfl
  · rw [int32_ok h0 h1, ok_bind, assertP_ok h]

theorem divR_ok {x y : ℝ} (h : y ≠ 0) : divR x y = .ok (x / y) := by simp [divR, h, pure_eq]
theorem logR_ok {x : ℝ} (h : 0 < x) : logR x = .ok (Real.log x) := by simp [logR, h, pure_eq]
theorem log10R_ok {x : ℝ} (h : 0 < x) : log10R x = .ok (Real.logb 10 x) := by simp [log10R, h, pure_eq]
theorem sqrtR_ok {x : ℝ} (h : 0 ≤ x) : sqrtR x = .ok (Real.sqrt x) := by simp [sqrtR, h, pure_eq]
theorem powR_ok {x y : ℝ} (h : 0 ≤ x) : powR x y = .ok (x ^ y) := by simp [powR, h, pure_eq]

theorem PI_pos : 0 < PI := by norm_num [PI]
theorem pi_gt_d33 : 3.141592653589793238462643383279501 < Real.pi := by
  pi_lower_bound [
    2-585786437626904951198311275790301921430328124623051926823320262009267521537892/1000000000000000000000000000000000000000000000000000000000000000000000000000000,
    2-152240934977426487743633621206423426355166748272715027769804537438929984997795/1000000000000000000000000000000000000000000000000000000000000000000000000000000,
    2-38429439193539101747635527731521926052132538213327809994167822909386972900789/1000000000000000000000000000000000000000000000000000000000000000000000000000000,
    2-9630546655606227510326093781040156849050262540285876332774068430219666210826/1000000000000000000000000000000000000000000000000000000000000000000000000000000,
    2-2409087589655214570456790481798611113592770590776411314365852628780188095684/1000000000000000000000000000000000000000000000000000000000000000000000000000000,
    2-602362607591559768468700667655606299877837484540750711752424147236662490570/1000000000000000000000000000000000000000000000000000000000000000000000000000000,
    2-150596321710918156707017607233551298787062395564339511832653997032557226231/1000000000000000000000000000000000000000000000000000000000000000000000000000000,
    2-37649434797714686019124542864567652165498111329816119684609838357861046819/1000000000000000000000000000000000000000000000000000000000000000000000000000000,
    2-9412380847656976839748599760200894024732755624691778526026512353397773713/1000000000000000000000000000000000000000000000000000000000000000000000000000000,
    2-2353096596180141948579656947961903464154220469921552274941089776382843060/1000000000000000000000000000000000000000000000000000000000000000000000000000000,
    2-588274235561679543564522468645767472201301396797216408016204685701073874/1000000000000000000000000000000000000000000000000000000000000000000000000000000,
    2-147068564297710537038585224286103597688622154461870535708857311676164721/1000000000000000000000000000000000000000000000000000000000000000000000000000000,
    2-36767141412383306169194180570989847897514439293249372421890802340557726/1000000000000000000000000000000000000000000000000000000000000000000000000000000,
    2-9191785374218056133720787702082211393621094351938494346642848059216937/1000000000000000000000000000000000000000000000000000000000000000000000000000000,
    2-2297946344874653384410891783198925167611435753164341723330307631914505/1000000000000000000000000000000000000000000000000000000000000000000000000000000,
    2-574486586301172055562716447821821084163429494578580584070870123271841/1000000000000000000000000000000000000000000000000000000000000000000000000000000,
    2-143621646580449808232299019479039333780968396093917217549747995244704/1000000000000000000000000000000000000000000000000000000000000000000000000000000,
    2-35905411645434751704431785240721625007448398290440814351248439524909/1000000000000000000000000000000000000000000000000000000000000000000000000000000,
    2-8976352911378831654005351116970797069371817638013272984330638122828/1000000000000000000000000000000000000000000000000000000000000000000000000000000,
    2-2244088227845966896494926992301556178954769945060577218152528629565/1000000000000000000000000000000000000000000000000000000000000000000000000000000,
    2-561022056961570410560831095963980999939572240544931872042429771754/1000000000000000000000000000000000000000000000000000000000000000000000000000000,
    2-140255514240397520542526483578913706532270295297635561910552701888/1000000000000000000000000000000000000000000000000000000000000000000000000000000,
    2-35063878560099687504526540249362102969580773756539131951984707697/1000000000000000000000000000000000000000000000000000000000000000000000000000000,
    2-8765969640024941086687567522089330088463239932972434159439646227/1000000000000000000000000000000000000000000000000000000000000000000000000000000,
    2-2191492410006236472331637659257948412104999947009017705239417301/1000000000000000000000000000000000000000000000000000000000000000000000000000000,
    2-547873102501559193124143525985483652687448376029997918971102484/1000000000000000000000000000000000000000000000000000000000000000000000000000000,
    2-136968275625389802971113013444558518721575649845882537290502862/1000000000000000000000000000000000000000000000000000000000000000000000000000000,
    2-34242068906347451035908074107901360045936769959315457645446480/1000000000000000000000000000000000000000000000000000000000000000000000000000000,
    2-8560517226586862777297632323647948237747586087474571034021542/1000000000000000000000000000000000000000000000000000000000000000000000000000000,
    2-2140129306646715695469446443204025074803623699909474506074503/1000000000000000000000000000000000000000000000000000000000000000000000000000000,
    2-535032326661678923938926508444258644680471140451607721435295/1000000000000000000000000000000000000000000000000000000000000000000000000000000,
    2-133758081665419730989204433213767934669139748062021359895748/1000000000000000000000000000000000000000000000000000000000000000000000000000000,
    2-33439520416354932747580658684860938260978483715168733790379/1000000000000000000000000000000000000000000000000000000000000000000000000000000,
    2-8359880104088733186912636570053919227350540629010886646597/1000000000000000000000000000000000000000000000000000000000000000000000000000000,
    2-2089970026022183296729251136190897598219256279633417816047/1000000000000000000000000000000000000000000000000000000000000000000000000000000,
    2-522492506505545824182381033652563011516165407887101513731/1000000000000000000000000000000000000000000000000000000000000000000000000000000,
    2-130623126626386456045599524013443166126625810874040093885/1000000000000000000000000000000000000000000000000000000000000000000000000000000,
    2-32655781656596614011400147603379692359630481404254584190/1000000000000000000000000000000000000000000000000000000000000000000000000000000,
    2-8163945414149153502850053563346104391655997143990696967/1000000000000000000000000000000000000000000000000000000000000000000000000000000,
    2-2040986353537288375712514432242849929273272835556677672/1000000000000000000000000000000000000000000000000000000000000000000000000000000,
    2-510246588384322093928128673148607721778272805736623737/1000000000000000000000000000000000000000000000000000000000000000000000000000000,
    2-127561647096080523482032172355145382910815363737122088/1000000000000000000000000000000000000000000000000000000000000000000000000000000,
    2-31890411774020130870508043343035936506844288578215910/1000000000000000000000000000000000000000000000000000000000000000000000000000000,
    2-7972602943505032717627010851649583550407350122299939/1000000000000000000000000000000000000000000000000000000000000000000000000000000,
    2-1993150735876258179406752713905558351582854904184107/1000000000000000000000000000000000000000000000000000000000000000000000000000000,
    2-498287683969064544851688178538462241894527311896596/1000000000000000000000000000000000000000000000000000000000000000000000000000000,
    2-124571920992266136212922044638495101348557677089809/1000000000000000000000000000000000000000000000000000000000000000000000000000000,
    2-31142980248066534053230511159866246641822284842181/1000000000000000000000000000000000000000000000000000000000000000000000000000000,
    2-7785745062016633513307627789981716116998250308653/1000000000000000000000000000000000000000000000000000000000000000000000000000000,
    2-1946436265504158378326906947496376182783480020795/1000000000000000000000000000000000000000000000000000000000000000000000000000000,
    2-486609066376039594581726736874153242791739845425/1000000000000000000000000000000000000000000000000000000000000000000000000000000,
    2-121652266594009898645431684218542010516426826370/1000000000000000000000000000000000000000000000000000000000000000000000000000000,
    2-30413066648502474661357921054635733867762448155/1000000000000000000000000000000000000000000000000000000000000000000000000000000,
    2-7603266662125618665339480263658947919356595886/1000000000000000000000000000000000000000000000000000000000000000000000000000000,
    2-1900816665531404666334870065914737883115147961/1000000000000000000000000000000000000000000000000000000000000000000000000000000,
    2-475204166382851166583717516478684527233536927/1000000000000000000000000000000000000000000000000000000000000000000000000000000]

theorem PI_lt_pi : PI < Real.pi := lt_of_lt_of_le (by norm_num [PI]) pi_gt_d33.le

/-! ## `ipowp` -/

theorem ipowp_loop {M : Type} [Monoid M] (n : ℕ) (z x : M) : ∃ y, whileU (fun s : M × M × ℤ => s.2.2 != 0)
    (fun s => pure (if s.2.2 % 2 ≠ 0 then s.1 * s.2.1 else s.1, s.2.1 * s.2.1, s.2.2 / 2)) (z, x, (n : ℤ)) = .ok (z * x ^ n, y, 0) := by
  induction n using Nat.strong_induction_on generalizing z x with
  | _ n ih =>
    rw [whileU_step]
    by_cases hn : n = 0
    · subst hn
      exact ⟨x, by simp [pure_eq]⟩
    · have h0 : ((n : ℤ) != 0) = true := by simp [hn]
      simp only [h0, if_true]
      rw [pure_bind']
      obtain ⟨y, hy⟩ := ih (n / 2) (by omega) (if (n : ℤ) % 2 ≠ 0 then z * x else z) (x * x)
      refine ⟨y, ?_⟩
      rw [show ((n : ℤ) / 2) = ((n / 2 : ℕ) : ℤ) by simp, hy]
      congr 2
      rw [← pow_two, ← pow_mul]
      split
      · rw [mul_assoc, ← pow_succ']
        congr 2
        omega
      · congr 2
        omega

theorem ipowp_ok {M : Type} [Monoid M] (bld : Build) (x : M) (n : ℕ) : ipowp bld x n = .ok (x ^ n) := by
  unfold ipowp
  obtain ⟨y, hy⟩ := ipowp_loop n 1 x
  rw [assertP_ok (by positivity), ok_bind, hy, ok_bind]
  simp [pure_eq]

theorem ipowp_neg {M : Type} [Monoid M] (bld : Build) (x : M) (n : ℤ) (hn : n < 0) :
    ipowp bld x n = .error (if bld.ndebug then .nonterm else .assertFail) := by
  unfold ipowp
  cases hb : bld.ndebug with
  | false =>
    rw [assertP_false hb (by omega), err_bind]
    rfl
  | true =>
    rw [assertP_ndebug hb, ok_bind, whileU_nonterm (I := fun s => s.2.2 < 0)]
    · rfl
    · intro s hs
      refine ⟨by simp; omega, _, rfl, ?_⟩
      show s.2.2 / 2 < 0
      omega
    · exact hn

/-! ## `compute_transition_param` -/

/-- `k` -/
noncomputable def kOf (t : ℝ) : ℝ := Real.tan ((1 - t * 2) * PI / 4) * Real.tan ((1 - t * 2) * PI / 4)

/-- `e` -/
noncomputable def eOf (k : ℝ) : ℝ := 0.5 * (1 - (1 - k * k) ^ (0.25 : ℝ)) / (1 + (1 - k * k) ^ (0.25 : ℝ))

/-- `q` -/
noncomputable def qOf (e : ℝ) : ℝ := e * (1 + e * e * (e * e) * (2 + e * e * (e * e) * (15 + 150 * (e * e * (e * e)))))

theorem kOf_bounds {t : ℝ} (h0 : 0 < t) (h1 : t < 1 / 2) : 0 < kOf t ∧ kOf t < 1 := by
  have p0 := PI_pos
  have p1 := PI_lt_pi
  have a0 : 0 < (1 - t * 2) * PI / 4 := by
    have : 0 < (1 - t * 2) * PI := mul_pos (by linarith) p0
    linarith
  have a1 : (1 - t * 2) * PI / 4 < Real.pi / 4 := by
    have : (1 - t * 2) * PI < 1 * Real.pi := mul_lt_mul (by linarith) p1.le p0 (by norm_num)
    linarith
  have t0 := Real.tan_pos_of_pos_of_lt_pi_div_two a0 (by linarith [Real.pi_pos])
  have t1 : Real.tan ((1 - t * 2) * PI / 4) < 1 := by
    refine lt_of_lt_of_eq ?_ Real.tan_pi_div_four
    exact Real.tan_lt_tan_of_lt_of_lt_pi_div_two (by linarith [Real.pi_pos]) (by linarith [Real.pi_pos]) a1
  exact ⟨mul_pos t0 t0, by unfold kOf; nlinarith⟩

theorem quarter_bounds {k : ℝ} (h0 : 0 < k) (h1 : k < 1) : 0 < (1 - k * k) ^ (0.25 : ℝ) ∧ (1 - k * k) ^ (0.25 : ℝ) < 1 := by
  have h2 : 0 < 1 - k * k := by nlinarith
  exact ⟨Real.rpow_pos_of_pos h2 _, Real.rpow_lt_one h2.le (by nlinarith) (by norm_num)⟩

theorem eOf_bounds {k : ℝ} (h0 : 0 < k) (h1 : k < 1) : 0 < eOf k ∧ eOf k < 1 / 2 := by
  obtain ⟨s0, s1⟩ := quarter_bounds h0 h1
  unfold eOf
  constructor
  · exact div_pos (by linarith) (by linarith)
  · rw [div_lt_iff₀ (by linarith)]
    linarith

theorem qOf_bounds {e : ℝ} (h0 : 0 < e) (h1 : e < 1 / 2) : e < qOf e ∧ qOf e < 31 / 50 := by
  have e2 : e * e < 1 / 4 := by nlinarith
  have e20 : 0 < e * e := mul_pos h0 h0
  have e4 : e * e * (e * e) < 1 / 16 := by nlinarith
  have e40 : 0 < e * e * (e * e) := mul_pos e20 e20
  unfold qOf
  generalize e * e * (e * e) = z at e4 e40
  have i1 : z * (15 + 150 * z) < 1 / 16 * 25 := by nlinarith
  have i10 : 0 < z * (15 + 150 * z) := by positivity
  have i2 : z * (2 + z * (15 + 150 * z)) < 1 / 16 * (2 + 25 / 16) := by
    generalize z * (15 + 150 * z) = y at i1 i10 ⊢
    nlinarith
  have i20 : 0 < z * (2 + z * (15 + 150 * z)) := by positivity
  generalize z * (2 + z * (15 + 150 * z)) = y at i2 i20
  constructor <;> nlinarith

theorem transition_ok (bld : Build) {t : ℝ} (h0 : 0 < t) (h1 : t < 1 / 2) :
    computeTransitionParam bld t = .ok (kOf t, qOf (eOf (kOf t))) := by
  obtain ⟨k0, k1⟩ := kOf_bounds h0 h1
  obtain ⟨s0, s1⟩ := quarter_bounds k0 k1
  obtain ⟨e0, e1⟩ := eOf_bounds k0 k1
  obtain ⟨q0, q1⟩ := qOf_bounds e0 e1
  unfold computeTransitionParam
  rw [assertP_ok h0, ok_bind, assertP_ok (by norm_num; linarith), ok_bind]
  show (assertP bld (kOf t < 1) >>= fun _ => assertP bld (kOf t > 0) >>= fun _ => _) = _
  rw [assertP_ok k1, ok_bind, assertP_ok k0, ok_bind]
  show (powR (1 - kOf t * kOf t) 0.25 >>= fun _ => _) = _
  rw [powR_ok (by nlinarith), ok_bind, divR_ok (by linarith), ok_bind]
  show (assertP bld (qOf (eOf (kOf t)) > 0) >>= fun _ => pure (kOf t, qOf (eOf (kOf t)))) = _
  rw [assertP_ok (by linarith), ok_bind]
  rfl

/-- `q` for a transition band. -/
noncomputable def nome (t : ℝ) : ℝ := qOf (eOf (kOf t))

theorem nome_bounds {t : ℝ} (h0 : 0 < t) (h1 : t < 1 / 2) : 0 < nome t ∧ nome t < 31 / 50 := by
  obtain ⟨k0, k1⟩ := kOf_bounds h0 h1
  obtain ⟨e0, e1⟩ := eOf_bounds k0 k1
  obtain ⟨q0, q1⟩ := qOf_bounds e0 e1
  exact ⟨by unfold nome; linarith, q1⟩

/-! ## `compute_order`, `compute_atten` -/

/-- `a` of `compute_order` -/
noncomputable def aOf (att : ℝ) : ℝ := (10 : ℝ) ^ (-att / 10) / (1 - (10 : ℝ) ^ (-att / 10))

theorem p2_bounds {att : ℝ} (h : 0 < att) : 0 < (10 : ℝ) ^ (-att / 10) ∧ (10 : ℝ) ^ (-att / 10) < 1 :=
  ⟨Real.rpow_pos_of_pos (by norm_num) _, Real.rpow_lt_one_of_one_lt_of_neg (by norm_num) (by linarith)⟩

theorem aOf_pos {att : ℝ} (h : 0 < att) : 0 < aOf att := by
  obtain ⟨h1, h2⟩ := p2_bounds h
  exact div_pos h1 (by linarith)

/-- The order before it is made an odd number. -/
noncomputable def realOrder (att q : ℝ) : ℝ := Real.log (aOf att * aOf att / 16) / Real.log q

/-- How `compute_order` turns a number into an order. -/
def fixOrder (n : ℤ) : ℤ := if (if n % 2 = 0 then n + 1 else n) = 1 then 3 else if n % 2 = 0 then n + 1 else n

theorem order_eq (bld : Build) {att q : ℝ} (h : 0 < att) (h0 : 0 < q) (h1 : q < 1) :
    computeOrder bld att q = (do pure (fixOrder (← ceilInt (realOrder att q)))) := by
  obtain ⟨p0, p1⟩ := p2_bounds h
  have := aOf_pos h
  unfold computeOrder
  rw [assertP_ok h, ok_bind, assertP_ok h0, ok_bind]
  simp only
  rw [divR_ok (by linarith), ok_bind]
  show (logR (aOf att * aOf att / 16) >>= fun _ => _) = _
  rw [logR_ok (by positivity), ok_bind, logR_ok h0, ok_bind, divR_ok (Real.log_neg h0 h1).ne, ok_bind]
  rfl

/-- `compute_atten` as a formula -/
noncomputable def attenOf (q : ℝ) (order : ℤ) : ℝ :=
  -10 * Real.logb 10 (4 * Real.exp (order * 0.5 * Real.log q) / (1 + 4 * Real.exp (order * 0.5 * Real.log q)))

theorem atten_ok (bld : Build) {q : ℝ} (h0 : 0 < q) {order : ℤ} (h : 0 < order) (ho : order % 2 = 1) :
    computeAtten bld q order = .ok (attenOf q order) ∧ 0 < attenOf q order := by
  have ha : 0 < 4 * Real.exp (order * 0.5 * Real.log q) := by positivity
  have hpos : 0 < attenOf q order := by
    unfold attenOf
    have : Real.logb 10 (4 * Real.exp (order * 0.5 * Real.log q) / (1 + 4 * Real.exp (order * 0.5 * Real.log q))) < 0 := by
      refine Real.logb_neg (by norm_num) (by positivity) ?_
      rw [div_lt_one (by positivity)]
      linarith
    linarith
  refine ⟨?_, hpos⟩
  unfold computeAtten
  rw [assertP_ok h0, ok_bind, assertP_ok h, ok_bind, assertP_ok ho, ok_bind, logR_ok h0, ok_bind]
  simp only
  rw [assertP_ok (by linarith), ok_bind, divR_ok (by linarith), ok_bind, log10R_ok (by positivity), ok_bind]
  show (assertP bld (attenOf q order > 0) >>= fun _ => pure (attenOf q order)) = _
  rw [assertP_ok hpos, ok_bind]
  rfl

/-- An order reaches an attenuation if and only if it is at least `realOrder`. -/
theorem le_attenOf {att q : ℝ} (h : 0 < att) (h0 : 0 < q) (h1 : q < 1) (n : ℤ) : att ≤ attenOf q n ↔ realOrder att q ≤ n := by
  obtain ⟨p0, p1⟩ := p2_bounds h
  have ha := aOf_pos h
  have hl := Real.log_neg h0 h1
  have e1 : Real.exp (n * 0.5 * Real.log q) ^ 2 = Real.exp (n * Real.log q) := by
    rw [← Real.exp_nat_mul]
    congr 1
    push_cast
    ring
  have hx : 0 < Real.exp (n * 0.5 * Real.log q) := Real.exp_pos _
  unfold attenOf
  generalize Real.exp (n * 0.5 * Real.log q) = x at e1 hx
  have s1 : att ≤ -10 * Real.logb 10 (4 * x / (1 + 4 * x)) ↔ 4 * x / (1 + 4 * x) ≤ (10 : ℝ) ^ (-att / 10) := by
    rw [← Real.logb_le_iff_le_rpow (by norm_num) (by positivity)]
    constructor <;> intro h <;> linarith
  have s2 : 4 * x / (1 + 4 * x) ≤ (10 : ℝ) ^ (-att / 10) ↔ 4 * x ≤ aOf att := by
    unfold aOf
    generalize (10 : ℝ) ^ (-att / 10) = p at p0 p1
    rw [div_le_iff₀ (by positivity), le_div_iff₀ (by linarith)]
    constructor <;> intro h <;> linarith
  have s3 : 4 * x ≤ aOf att ↔ x ^ 2 ≤ aOf att * aOf att / 16 := by
    rw [← sq_le_sq₀ (by positivity) ha.le]
    constructor <;> intro h <;> nlinarith
  have s4 : x ^ 2 ≤ aOf att * aOf att / 16 ↔ n * Real.log q ≤ Real.log (aOf att * aOf att / 16) := by
    rw [e1, Real.le_log_iff_exp_le (by positivity)]
  rw [s1, s2, s3, s4]
  unfold realOrder
  rw [div_le_iff_of_neg hl]

theorem fixOrder_odd (n : ℤ) : fixOrder n % 2 = 1 := by
  unfold fixOrder
  split <;> split at * <;> omega

theorem fixOrder_ge (n : ℤ) : n ≤ fixOrder n := by
  unfold fixOrder
  split <;> split at * <;> omega

theorem fixOrder_le {n : ℤ} : fixOrder n = 3 ∨ fixOrder n ≤ n + 1 := by
  unfold fixOrder
  split <;> split at * <;> omega

theorem fixOrder_pos {n : ℤ} (h : 0 ≤ n) : 3 ≤ fixOrder n := by
  unfold fixOrder
  split <;> split at * <;> omega

theorem half_order {n : ℤ} : (fixOrder n - 1).tdiv 2 * 2 + 1 = fixOrder n := by
  have := fixOrder_odd n
  have h2 : (fixOrder n - 1) % 2 = 0 := by omega
  have := Int.tdiv_mul_cancel (Int.dvd_of_emod_eq_zero h2)
  omega

theorem nbr_eq (bld : Build) {att t : ℝ} (h : 0 < att) (h0 : 0 < t) (h1 : t < 1 / 2) :
    computeNbrCoefsFromProto bld att t = (do pure ((fixOrder (← ceilInt (realOrder att (nome t))) - 1).tdiv 2)) := by
  obtain ⟨q0, q1⟩ := nome_bounds h0 h1
  unfold computeNbrCoefsFromProto
  rw [assertP_ok h, ok_bind, assertP_ok h0, ok_bind, assertP_ok (by norm_num; linarith), ok_bind, transition_ok bld h0 h1, ok_bind]
  show (computeOrder bld att (nome t) >>= _) = _
  rw [order_eq bld h q0 (by linarith)]
  show ((ceilInt (realOrder att (nome t)) >>= fun a => pure (fixOrder a)) >>= _) = _
  cases ceilInt (realOrder att (nome t)) <;> rfl

theorem attenTbw_ok (bld : Build) {t : ℝ} (h0 : 0 < t) (h1 : t < 1 / 2) {n : ℤ} (hn : 0 < n) (hn' : n < 2 ^ 30) :
    computeAttenFromOrderTbw bld n t = .ok (attenOf (nome t) (n * 2 + 1)) := by
  unfold computeAttenFromOrderTbw
  rw [assertP_ok hn, ok_bind, assertP_ok h0, ok_bind, assertP_ok (by norm_num; linarith), ok_bind, transition_ok bld h0 h1, ok_bind, int32_ok (by omega) (by omega), ok_bind]
  exact (atten_ok bld (nome_bounds h0 h1).1 (by omega) (by omega)).1

/-! ## Series -/

theorem series_loop {f : ℕ → ℝ} {body : Acc → Res Acc} {ε : ℝ} {i0 j0 : ℤ} (N : ℕ) (hN : |f N| ≤ ε)
    (hbody : ∀ (i : ℕ) (s : Acc), i ≤ N → s.i = i0 + i → s.j = j0 * (-1) ^ i →
      body s = .ok { i := s.i + 1, j := -s.j, acc := s.acc + f i, term := f i }) :
    ∃ n ≤ N, |f n| ≤ ε ∧ (∀ m < n, ε < |f m|) ∧
      ∃ s, (body ⟨i0, j0, 0, 0⟩ >>= whileU (fun s : Acc => decide (|s.term| > ε)) body) = .ok s ∧ s.acc = ∑ i ∈ Finset.range (n + 1), f i := by
  classical
  have hex : ∃ n, |f n| ≤ ε := ⟨N, hN⟩
  set n := Nat.find hex with hn
  have hn1 : |f n| ≤ ε := Nat.find_spec hex
  have hn2 : ∀ m < n, ε < |f m| := fun m hm => not_le.mp (Nat.find_min hex hm)
  have hnN : n ≤ N := Nat.find_min' hex hN
  refine ⟨n, hnN, hn1, hn2, ?_⟩
  have key : ∀ d i : ℕ, i + d = n → ∀ s : Acc, s.i = i0 + (i + 1 : ℕ) → s.j = j0 * (-1) ^ (i + 1) → s.term = f i →
      s.acc = ∑ i ∈ Finset.range (i + 1), f i →
      ∃ s', whileU (fun s : Acc => decide (|s.term| > ε)) body s = .ok s' ∧ s'.acc = ∑ i ∈ Finset.range (n + 1), f i := by
    intro d
    induction d with
    | zero =>
      intro i hi s h1 h2 h3 h4
      have : i = n := by omega
      subst this
      refine ⟨s, ?_, h4⟩
      rw [whileU_step, if_neg (by rw [h3]; simpa using hn1)]
      rfl
    | succ d ih =>
      intro i hi s h1 h2 h3 h4
      rw [whileU_step, if_pos (by rw [h3]; simpa using hn2 i (by omega)), hbody (i + 1) s (by omega) h1 h2, ok_bind]
      refine ih (i + 1) (by omega) _ ?_ ?_ rfl ?_
      · simp only [h1]
        push_cast
        ring
      · simp only [h2]
        ring
      · simp only [h4]
        rw [Finset.sum_range_succ _ (i + 1)]
  rw [hbody 0 _ (by omega) (by simp) (by simp), ok_bind]
  exact key n 0 (by omega) _ (by simp) (by simp) rfl (by simp)

/-- Terms of the series for the numerator. -/
noncomputable def numTerm (q : ℝ) (order c : ℤ) (i : ℕ) : ℝ :=
  q ^ (i * (i + 1)) * (Real.sin ((((i : ℤ) * 2 + 1) * c : ℤ) * PI / order) * ((-1) ^ i : ℤ))

/-- Terms of the series for the denominator (starting with 1). -/
noncomputable def denTerm (q : ℝ) (order c : ℤ) (i : ℕ) : ℝ :=
  q ^ ((i + 1) * (i + 1)) * (Real.cos ((((i : ℤ) + 1) * 2 * c : ℤ) * PI / order) * (-(-1) ^ i : ℤ))

theorem abs_numTerm_le {q : ℝ} (h0 : 0 ≤ q) (order c : ℤ) (i : ℕ) : |numTerm q order c i| ≤ q ^ (i * (i + 1)) := by
  unfold numTerm
  rw [abs_mul, abs_mul, abs_of_nonneg (pow_nonneg h0 _)]
  have h1 := Real.abs_sin_le_one ((((i : ℤ) * 2 + 1) * c : ℤ) * PI / order)
  have h2 : |(((-1) ^ i : ℤ) : ℝ)| = 1 := by push_cast; rw [abs_pow, abs_neg, abs_one, one_pow]
  rw [h2, mul_one]
  exact mul_le_of_le_one_right (pow_nonneg h0 _) h1

theorem abs_denTerm_le {q : ℝ} (h0 : 0 ≤ q) (order c : ℤ) (i : ℕ) : |denTerm q order c i| ≤ q ^ ((i + 1) * (i + 1)) := by
  unfold denTerm
  rw [abs_mul, abs_mul, abs_of_nonneg (pow_nonneg h0 _)]
  have h1 := Real.abs_cos_le_one ((((i : ℤ) + 1) * 2 * c : ℤ) * PI / order)
  have h2 : |((-(-1) ^ i : ℤ) : ℝ)| = 1 := by push_cast; rw [abs_neg, abs_pow, abs_neg, abs_one, one_pow]
  rw [h2, mul_one]
  exact mul_le_of_le_one_right (pow_nonneg h0 _) h1

theorem accNum_ok (bld : Build) {q : ℝ} {order c : ℤ} (hc : 1 ≤ c) (ho : c < order * 2) (ho1 : order < 2 ^ 30) {N : ℕ} (hN1 : N ≤ 22)
    (hcN : c ≤ 2 ^ 25) (hN : |numTerm q order c N| ≤ 1e-100) :
    ∃ n ≤ N, |numTerm q order c n| ≤ 1e-100 ∧ (∀ m < n, 1e-100 < |numTerm q order c m|) ∧
      computeAccNum bld q order c = .ok (∑ i ∈ Finset.range (n + 1), numTerm q order c i) := by
  have ho' : (order : ℝ) ≠ 0 := by
    have : order ≠ 0 := by omega
    exact_mod_cast this
  set body := fun s : Acc => (do
    let t ← ipowp bld q (← int32 (s.i * (s.i + 1)))
    let a ← int32 ((s.i * 2 + 1) * c)
    let t := t * (Real.sin (← divR (a * PI) order) * s.j)
    pure { i := s.i + 1, j := -s.j, acc := s.acc + t, term := t : Acc } : Res Acc) with hb
  obtain ⟨n, h1, h2, h3, s, h4, h5⟩ := series_loop (f := numTerm q order c) (body := body) (i0 := 0) (j0 := 1) N hN (by
    intro i s hiN hi hj
    have hi22 : (i : ℤ) ≤ 22 := by exact_mod_cast hiN.trans hN1
    simp only [hb]
    rw [hi, int32_ok (by nlinarith) (by nlinarith), ok_bind, int32_ok (x := ((0 + (i : ℤ)) * 2 + 1) * c) (by nlinarith) (by nlinarith), show (0 + (i : ℤ)) * (0 + (i : ℤ) + 1) = ((i * (i + 1) : ℕ) : ℤ) by push_cast; ring, ipowp_ok, ok_bind, ok_bind, divR_ok ho', ok_bind,
      hj, zero_add, one_mul]
    rfl)
  refine ⟨n, h1, h2, h3, ?_⟩
  unfold computeAccNum
  rw [assertP_ok hc, ok_bind, assertI_ok (by omega) (by omega) ho, ok_bind]
  show (body ⟨0, 1, 0, 0⟩ >>= fun a => whileU (fun s : Acc => decide (|s.term| > 1e-100)) body a >>= fun s => pure s.acc) = _
  rw [← bind_assoc, h4, ok_bind, h5]
  rfl

theorem accDen_ok (bld : Build) {q : ℝ} {order c : ℤ} (hc : 1 ≤ c) (ho : c < order * 2) (ho1 : order < 2 ^ 30) {N : ℕ} (hN1 : N ≤ 22)
    (hcN : c ≤ 2 ^ 25) (hN : |denTerm q order c N| ≤ 1e-100) :
    ∃ n ≤ N, |denTerm q order c n| ≤ 1e-100 ∧ (∀ m < n, 1e-100 < |denTerm q order c m|) ∧
      computeAccDen bld q order c = .ok (∑ i ∈ Finset.range (n + 1), denTerm q order c i) := by
  have ho' : (order : ℝ) ≠ 0 := by
    have : order ≠ 0 := by omega
    exact_mod_cast this
  set body := fun s : Acc => (do
    let t ← ipowp bld q (← int32 (s.i * s.i))
    let a ← int32 (s.i * 2 * c)
    let t := t * (Real.cos (← divR (a * PI) order) * s.j)
    pure { i := s.i + 1, j := -s.j, acc := s.acc + t, term := t : Acc } : Res Acc) with hb
  obtain ⟨n, h1, h2, h3, s, h4, h5⟩ := series_loop (f := denTerm q order c) (body := body) (i0 := 1) (j0 := -1) N hN (by
    intro i s hiN hi hj
    have hi22 : (i : ℤ) ≤ 22 := by exact_mod_cast hiN.trans hN1
    simp only [hb]
    rw [hi, int32_ok (by nlinarith) (by nlinarith), ok_bind, int32_ok (x := (1 + (i : ℤ)) * 2 * c) (by nlinarith) (by nlinarith), show (1 + (i : ℤ)) * (1 + (i : ℤ)) = (((i + 1) * (i + 1) : ℕ) : ℤ) by push_cast; ring, ipowp_ok, ok_bind, ok_bind, divR_ok ho', ok_bind,
      hj, neg_one_mul, add_comm (1 : ℤ) (i : ℤ)]
    rfl)
  refine ⟨n, h1, h2, h3, ?_⟩
  unfold computeAccDen
  rw [assertP_ok hc, ok_bind, assertI_ok (by omega) (by omega) ho, ok_bind]
  show (body ⟨1, -1, 0, 0⟩ >>= fun a => whileU (fun s : Acc => decide (|s.term| > 1e-100)) body a >>= fun s => pure s.acc) = _
  rw [← bind_assoc, h4, ok_bind, h5]
  rfl

/-- A loop with a bounded counter ends, or fails otherwise. -/
theorem whileU_ends {σ : Type} {cond : σ → Bool} {body : σ → Res σ} {I : σ → Prop} {μ : σ → ℕ} {N : ℕ}
    (hc : ∀ s, I s → cond s = true → μ s < N)
    (hb : ∀ s, I s → cond s = true → (∃ e, body s = .error e ∧ e ≠ .nonterm) ∨ ∃ s', body s = .ok s' ∧ I s' ∧ μ s' = μ s + 1) :
    ∀ {s : σ}, I s → whileU cond body s ≠ .error .nonterm := by
  have key : ∀ d : ℕ, ∀ s, I s → N - μ s = d → whileU cond body s ≠ .error .nonterm := by
    intro d
    induction d with
    | zero =>
      intro s hs hd
      have : cond s = false := by
        by_contra h
        have := hc s hs (by simpa using h)
        omega
      rw [whileU_step, if_neg (by simp [this])]
      exact fun h => nomatch h
    | succ d ih =>
      intro s hs hd
      rw [whileU_step]
      by_cases h : cond s = true
      · rw [if_pos h]
        rcases hb s hs h with ⟨e, e1, e2⟩ | ⟨s1, e1, i1, m1⟩
        · rw [e1, err_bind]
          exact fun h => e2 (Except.error.inj h)
        · rw [e1, ok_bind]
          exact ih s1 i1 (by omega)
      · rw [if_neg h]
        exact fun h => nomatch h
  exact fun {s} hs => key _ s hs rfl

theorem int32_cases (x : ℤ) : int32 x = .ok x ∨ int32 x = .error .overflow := by
  unfold int32
  split
  · exact Or.inl rfl
  · exact Or.inr rfl

theorem divR_cases (x y : ℝ) : divR x y = .ok (x / y) ∨ divR x y = .error .domain := by
  unfold divR
  split
  · exact Or.inr rfl
  · exact Or.inl rfl

/-- The body of one of the two loops. `e`, `a`: exponent and argument, `fn`: sine or cosine. -/
theorem series_ends (bld : Build) {q : ℝ} (q0 : 0 < q) (q1 : q < 1) {order i0 : ℤ} {e a : ℤ → ℤ} {fn : ℝ → ℝ} (hf : ∀ x, |fn x| ≤ 1)
    (he : ∀ i : ℕ, ∃ m : ℕ, e (i0 + i) = m ∧ i ≤ m) {s : Acc} (hs : s.i = i0) (hj : |s.j| = 1) {body : Acc → Res Acc}
    (hbody : body = fun s => do
      let t ← ipowp bld q (← int32 (e s.i))
      let b ← int32 (a s.i)
      let t := t * (fn (← divR (b * PI) order) * s.j)
      pure { i := s.i + 1, j := -s.j, acc := s.acc + t, term := t : Acc }) :
    (body s >>= whileU (fun s : Acc => decide (|s.term| > 1e-100)) body) ≠ .error .nonterm := by
  obtain ⟨N, hN⟩ := exists_pow_lt_of_lt_one (by norm_num : (0 : ℝ) < 1e-100) q1
  have step : ∀ (i : ℕ) (s : Acc), s.i = i0 + i → |s.j| = 1 → (∃ e, body s = .error e ∧ e ≠ .nonterm) ∨
      ∃ s', body s = .ok s' ∧ s'.i = i0 + (i + 1 : ℕ) ∧ |s'.j| = 1 ∧ |s'.term| ≤ q ^ i := by
    intro i s hi hj
    obtain ⟨m, hm, him⟩ := he i
    rw [hbody]
    simp only
    rw [hi, hm]
    rcases int32_cases m with h1 | h1
    · rw [h1, ok_bind, ipowp_ok, ok_bind]
      rcases int32_cases (a (i0 + i)) with h2 | h2
      · rw [h2, ok_bind]
        rcases divR_cases (a (i0 + i) * PI) order with h3 | h3
        · rw [h3, ok_bind]
          refine Or.inr ⟨_, rfl, by push_cast; ring, by rw [← hj]; exact abs_neg _, ?_⟩
          have hj' : |(s.j : ℝ)| = 1 := by exact_mod_cast hj
          simp only
          rw [abs_mul, abs_mul, hj', mul_one, abs_of_nonneg (pow_nonneg q0.le _)]
          calc q ^ m * |fn (a (i0 + i) * PI / order)| ≤ q ^ m * 1 := by
                refine mul_le_mul_of_nonneg_left (hf _) (pow_nonneg q0.le _)
            _ ≤ q ^ i := by rw [mul_one]; exact pow_le_pow_of_le_one q0.le q1.le him
        · rw [h3]
          exact Or.inl ⟨_, rfl, by decide⟩
      · rw [h2]
        exact Or.inl ⟨_, rfl, by decide⟩
    · rw [h1]
      exact Or.inl ⟨_, rfl, by decide⟩
  rcases step 0 s (by simp [hs]) hj with ⟨e, h1, h2⟩ | ⟨s1, h1, h2, h3, h4⟩
  · rw [h1, err_bind]
    exact fun h => h2 (Except.error.inj h)
  · rw [h1, ok_bind]
    refine whileU_ends (I := fun s => ∃ i : ℕ, s.i = i0 + (i + 1 : ℕ) ∧ |s.j| = 1 ∧ |s.term| ≤ q ^ i) (μ := fun s => (s.i - i0 - 1).toNat) (N := N)
      (fun s hI hc => ?_) (fun s hI _ => ?_) ⟨0, h2, h3, h4⟩
    · obtain ⟨i, i1, -, i3⟩ := hI
      simp only [decide_eq_true_eq] at hc
      by_contra h
      have hle : N ≤ i := by omega
      have := pow_le_pow_of_le_one q0.le q1.le hle
      linarith
    · obtain ⟨i, i1, i2, -⟩ := hI
      rcases step (i + 1) s i1 i2 with h | ⟨s', c1, c2, c3, c4⟩
      · exact Or.inl h
      · exact Or.inr ⟨s', c1, ⟨i + 1, c2, c3, c4⟩, by omega⟩

theorem bind_ne_nonterm {α β : Type} {x : Res α} {f : α → Res β} (h : x ≠ .error .nonterm) (hf : ∀ a, f a ≠ .error .nonterm) :
    (x >>= f) ≠ .error .nonterm := by
  cases x with
  | error e => exact fun h' => h (by rw [err_bind] at h'; rw [Except.error.inj h'])
  | ok a => exact hf a

theorem assertP_ends (bld : Build) (c : Prop) : assertP bld c ≠ .error .nonterm := by
  by_cases h : c
  · rw [assertP_ok h]
    exact fun h => nomatch h
  · cases hb : bld.ndebug
    · rw [assertP_false hb h]
      exact fun h => nomatch h
    · rw [assertP_ndebug hb]
      exact fun h => nomatch h

theorem assertLt_ends (bld : Build) (c x : ℤ) : assertLt bld c x ≠ .error .nonterm := by
  unfold assertLt
  split
  · exact fun h => nomatch h
  · rcases int32_cases x with h | h
    · rw [h, ok_bind]
      exact assertP_ends _ _
    · rw [h]
      exact fun h => nomatch h

theorem accNum_ends (bld : Build) {q : ℝ} (q0 : 0 < q) (q1 : q < 1) (order c : ℤ) : computeAccNum bld q order c ≠ .error .nonterm := by
  unfold computeAccNum
  refine bind_ne_nonterm (assertP_ends _ _) fun _ => bind_ne_nonterm (assertLt_ends _ _ _) fun _ => ?_
  have := series_ends bld q0 q1 (order := order) (i0 := 0) (e := fun i => i * (i + 1)) (a := fun i => (i * 2 + 1) * c)
    (fn := Real.sin) Real.abs_sin_le_one (fun i => ⟨i * (i + 1), by push_cast; ring, by nlinarith⟩) (s := ⟨0, 1, 0, 0⟩) rfl (by norm_num) rfl
  simp only
  rw [← bind_assoc]
  exact bind_ne_nonterm this fun s => fun h => nomatch h

theorem accDen_ends (bld : Build) {q : ℝ} (q0 : 0 < q) (q1 : q < 1) (order c : ℤ) : computeAccDen bld q order c ≠ .error .nonterm := by
  unfold computeAccDen
  refine bind_ne_nonterm (assertP_ends _ _) fun _ => bind_ne_nonterm (assertLt_ends _ _ _) fun _ => ?_
  have := series_ends bld q0 q1 (order := order) (i0 := 1) (e := fun i => i * i) (a := fun i => i * 2 * c)
    (fn := Real.cos) Real.abs_cos_le_one (fun i => ⟨(i + 1) * (i + 1), by push_cast; ring, by nlinarith⟩) (s := ⟨1, -1, 0, 0⟩) rfl (by norm_num) rfl
  simp only
  rw [← bind_assoc]
  exact bind_ne_nonterm this fun s => fun h => nomatch h

end Panda.Designer
