import Mathlib.Data.List.Basic
import Verif.Spec.TestArgs

/-!
# The command line parser
-/

set_option linter.unusedSectionVars false

namespace Panda.Tool

@[simp] theorem run_ok_bind {α β : Type} (a : α) (f : α → Run β) : ((Except.ok a : Run α) >>= f) = f a := rfl
@[simp] theorem run_err_bind {α β : Type} (e : Stop) (f : α → Run β) : ((Except.error e : Run α) >>= f) = .error e := rfl
@[simp] theorem run_pure {α : Type} (a : α) : (pure a : Run α) = .ok a := rfl

theorem tokens_eq (s cur : Str) : tokens cur s = (s.splitOnPPrepend (· == ',') cur).filter (· ≠ []) := by
  induction s generalizing cur with
  | nil => unfold tokens List.splitOnPPrepend; by_cases h : cur = [] <;> simp [h]
  | cons c s ih =>
    by_cases hc : c = ','
    · subst hc
      unfold tokens List.splitOnPPrepend
      by_cases h : cur = [] <;> simp [h, ih]
    · rw [tokens.eq_3 _ _ _ (by simpa using hc), ih]
      conv_rhs => unfold List.splitOnPPrepend
      simp [hc]

theorem tokens_part (t : Str) (n : Nat) (s : Str) : Part t n s ↔ (tokens [] t)[n]? = some s := by
  rw [tokens_eq]; rfl

/-- The name of an option without `=value`. -/
def base (a : Str) : Str := a.takeWhile (· ≠ '=')

theorem base_eq {name : Str} (h : '=' ∉ name) (a : Str) : base a = name ↔ a = name ∨ ∃ s, a = name ++ '=' :: s := by
  unfold base
  induction name generalizing a with
  | nil =>
    cases a with
    | nil => simp
    | cons c a => by_cases hc : c = '=' <;> simp [hc]
  | cons c name ih =>
    have hc : c ≠ '=' := fun e => h (by simp [e])
    have hn : '=' ∉ name := fun e => h (by simp [e])
    cases a with
    | nil => simp
    | cons d a =>
      by_cases hd : d = '='
      · subst hd
        simp [Ne.symm hc]
      · have := ih hn a
        simp only [decide_not] at this ⊢
        simp [hd, this, and_or_left]

theorem eqSign {name a : Str} : (name.isPrefixOf a = true ∧ a[name.length]? = some '=') ↔ ∃ s, a = name ++ '=' :: s := by
  constructor
  · rintro ⟨h1, h2⟩
    rw [List.isPrefixOf_iff_prefix] at h1
    obtain ⟨t, rfl⟩ := h1
    cases t with
    | nil => simp at h2
    | cons c t =>
      simp at h2
      subst h2
      exact ⟨t, rfl⟩
  · rintro ⟨s, rfl⟩
    simp [List.isPrefixOf_iff_prefix]

section
variable {D : Type} [Zero D] [One D] [Neg D] [LT D] [DecidableLT D]

/-- What one argument does: the number of arguments consumed, the options. -/
def stepF (l : List (Str × Action D)) (a : Str) (rest : List Str) (o : Opts D) : Run (Nat × Opts D) :=
  match l.lookup (base a) with
  | none => .ok (0, o)
  | some (.flag f) => if a = base a then .ok (1, f o) else .error (.exit 1)
  | some (.value f) =>
    if a = base a then
      match rest with
      | [] => .error (.exit 1)
      | s :: _ => do pure (2, ← f s o)
    else do pure (1, ← f (a.drop ((base a).length + 1)) o)

theorem rd_mid (pre : Argv) (a : Option Str) (l : Argv) : Argv.rd (pre ++ a :: l) pre.length = .ok a := by
  simp [Argv.rd]

theorem wr_mid (pre : Argv) (a b : Option Str) (l : Argv) : Argv.wr (pre ++ a :: l) pre.length b = .ok (pre ++ b :: l) := by
  simp [Argv.wr]

theorem rd_mid1 (pre : Argv) (c a : Option Str) (l : Argv) : Argv.rd (pre ++ c :: a :: l) (pre.length + 1) = .ok a := by
  have := rd_mid (pre ++ [c]) a l
  simpa using this

theorem wr_mid1 (pre : Argv) (c a b : Option Str) (l : Argv) :
    Argv.wr (pre ++ c :: a :: l) (pre.length + 1) b = .ok (pre ++ c :: b :: l) := by
  have := wr_mid (pre ++ [c]) a b l
  simpa using this

/-- The new vector after `k` arguments have been consumed. -/
def consumed (pre : Argv) (args : List Str) (k : Nat) : Argv :=
  pre ++ (List.replicate k none ++ (args.drop k).map some)

theorem tryOpts_eq (l : List (Str × Action D)) (hl : ∀ p ∈ l, '=' ∉ p.1) (pre : Argv) (a : Str) (rest : List Str) (o : Opts D) :
    tryOpts (pre.length + 1 + rest.length) (pre ++ (a :: rest).map some) pre.length o l =
      (do
        let (k, o) ← stepF l a rest o
        pure (consumed pre (a :: rest) k, pre.length + (k - 1), o)) := by
  induction l with
  | nil => simp [tryOpts, stepF, consumed]
  | cons p l ih =>
    obtain ⟨name, act⟩ := p
    have hn : '=' ∉ name := hl (name, act) (by simp)
    have ih := ih fun p hp => hl p (by simp [hp])
    have hlt : pre.length < pre.length + 1 + rest.length := by omega
    by_cases h1 : a = name
    · subst h1
      have hb : base a = a := (base_eq hn a).2 (Or.inl rfl)
      have hs : ((a, act) :: l).lookup a = some act := by simp
      cases act with
      | flag f =>
        simp only [tryOpts, checkArg, hlt, not_true, if_false, List.map_cons, rd_mid, run_ok_bind, if_true, wr_mid, run_pure,
          stepF, hb, hs, consumed]
        simp
      | value f =>
        simp only [tryOpts, checkArg, hlt, not_true, if_false, List.map_cons, rd_mid, run_ok_bind, if_true, wr_mid, run_pure,
          stepF, hb, hs, consumed]
        cases rest with
        | nil => simp
        | cons s rest =>
          have : pre.length + 1 < pre.length + 1 + (s :: rest).length := by simp
          simp only [this, and_self, if_true, List.map_cons, rd_mid1, wr_mid1, run_ok_bind]
          cases f s o <;> simp
    · have hne : name ≠ a := fun e => h1 e.symm
      by_cases h2 : ∃ s, a = name ++ '=' :: s
      · have hb : base a = name := (base_eq hn a).2 (Or.inr h2)
        have hs : ((name, act) :: l).lookup name = some act := by simp
        have he := eqSign.2 h2
        cases act with
        | flag f =>
          simp only [tryOpts, checkArg, hlt, not_true, if_false, List.map_cons, rd_mid, run_ok_bind, h1, he, and_self, if_true,
            stepF, hb, hs]
          simp
        | value f =>
          simp only [tryOpts, checkArg, hlt, not_true, if_false, List.map_cons, rd_mid, run_ok_bind, h1, he, and_self, if_true,
            stepF, hb, hs, wr_mid, run_pure, consumed]
          cases f (a.drop (name.length + 1)) o <;> simp
      · have hb : base a ≠ name := fun e => by
          rcases (base_eq hn a).1 e with h | h
          · exact h1 h
          · exact h2 h
        have hs : ((name, act) :: l).lookup (base a) = l.lookup (base a) := by
          rw [List.lookup_cons]
          have : (base a == name) = false := by simpa using hb
          rw [this]
        have he : ¬ (name.isPrefixOf a = true ∧ a[name.length]? = some '=') := fun h => h2 (eqSign.1 h)
        have hst : stepF ((name, act) :: l) a rest o = stepF l a rest o := by unfold stepF; rw [hs]
        rw [hst, ← ih]
        cases act <;>
          simp only [tryOpts, checkArg, hlt, not_true, if_false, List.map_cons, rd_mid, run_ok_bind, h1, he, run_pure]

/-- The arguments that are left (`none` for those that have been consumed) and the options. -/
def specF (l : List (Str × Action D)) : List Str → Opts D → Run (Argv × Opts D)
  | [], o => .ok ([], o)
  | a :: rest, o =>
    if a = "--help".toList ∨ a = "-h".toList then .error (.exit 0)
    else do
      let (k, o) ← stepF l a rest o
      if k = 2 then do
        let (m, o) ← specF l (rest.drop 1) o
        pure (none :: none :: m, o)
      else do
        let (m, o) ← specF l rest o
        pure ((if k = 1 then none else some a) :: m, o)
termination_by args => args.length

theorem stepF_cases {l : List (Str × Action D)} {a : Str} {rest : List Str} {o o' : Opts D} {k : Nat}
    (h : stepF l a rest o = .ok (k, o')) : (k = 2 ∧ rest ≠ []) ∨ k = 1 ∨ k = 0 := by
  unfold stepF at h
  split at h
  · cases h; simp
  · split at h
    · cases h; simp
    · cases h
  · rename_i f _
    split at h
    · cases rest with
      | nil => cases h
      | cons s rest =>
        simp only at h
        cases hf : f s o <;> rw [hf] at h <;> cases h
        simp
    · cases hf : f (a.drop ((base a).length + 1)) o <;> rw [hf] at h <;> cases h
      simp

theorem optTable_names (atof : Str → D) : ∀ p ∈ optTable atof, '=' ∉ p.1 := by
  simp [optTable]

theorem parseLoop_eq (atof : Str → D) (fuel : Nat) (pre : Argv) (args : List Str) (o : Opts D) (hf : args.length ≤ fuel) :
    parseLoop atof (pre.length + args.length) fuel (pre ++ args.map some) pre.length o =
      (do
        let (m, o) ← specF (optTable atof) args o
        pure (pre ++ m, o)) := by
  induction fuel generalizing pre args o with
  | zero =>
    have : args = [] := List.length_eq_zero_iff.1 (by omega)
    subst this
    simp [parseLoop, specF]
  | succ fuel ih =>
    cases args with
    | nil => simp [parseLoop, specF]
    | cons a rest =>
      have hlt : pre.length < pre.length + (a :: rest).length := by simp
      have hlen : pre.length + (a :: rest).length = pre.length + 1 + rest.length := by simp; omega
      rw [parseLoop, if_pos hlt, parseArg, List.map_cons, rd_mid, run_ok_bind, specF]
      simp only
      by_cases hh : a = "--help".toList ∨ a = "-h".toList
      · rw [if_pos hh, if_pos hh]; rfl
      · rw [if_neg hh, if_neg hh, hlen]
        have := tryOpts_eq (optTable atof) (optTable_names atof) pre a rest o
        rw [List.map_cons] at this
        rw [this]
        cases hs : stepF (optTable atof) a rest o with
        | error e => rfl
        | ok q =>
          obtain ⟨k, o1⟩ := q
          simp only [run_ok_bind, run_pure]
          simp only [List.length_cons] at hf
          rcases stepF_cases hs with ⟨rfl, hr⟩ | rfl | rfl
          · obtain ⟨s, rest, rfl⟩ : ∃ s r, rest = s :: r := by cases rest; exact absurd rfl hr; exact ⟨_, _, rfl⟩
            have := ih (pre ++ [none, none]) rest o1 (by simp at hf; omega)
            simp only [List.length_append, List.length_cons, List.length_nil, List.append_assoc] at this
            simp only [consumed, List.drop, List.replicate, if_true, List.length_cons]
            have e : pre.length + 1 + (rest.length + 1) = pre.length + (0 + 1 + 1) + rest.length := by omega
            rw [e]
            refine this.trans ?_
            cases specF (optTable atof) rest o1 <;> simp
          · have := ih (pre ++ [none]) rest o1 (by omega)
            simp only [List.length_append, List.length_cons, List.length_nil, List.append_assoc] at this
            simp only [consumed, List.drop, List.replicate]
            refine this.trans ?_
            cases specF (optTable atof) rest o1 <;> simp
          · have := ih (pre ++ [some a]) rest o1 (by omega)
            simp only [List.length_append, List.length_cons, List.length_nil, List.append_assoc] at this
            simp only [consumed, List.drop, List.replicate, List.map_cons]
            refine this.trans ?_
            cases specF (optTable atof) rest o1 <;> simp

theorem specF_length {l : List (Str × Action D)} {args : List Str} {o o' : Opts D} {m : Argv} (h : specF l args o = .ok (m, o')) :
    m.length = args.length := by
  induction hn : args.length using Nat.strongRecOn generalizing args o m with
  | _ n ih =>
    subst hn
    cases args with
    | nil => rw [specF] at h; cases h; rfl
    | cons a rest =>
      rw [specF] at h
      split at h
      · cases h
      · cases hs : stepF l a rest o with
        | error e => rw [hs] at h; cases h
        | ok q =>
          obtain ⟨k, o1⟩ := q
          rw [hs] at h
          simp only [run_ok_bind] at h
          split at h
          · rename_i h2
            rcases stepF_cases hs with ⟨-, hr⟩ | hk | hk
            · cases hq : specF l (rest.drop 1) o1 with
              | error e => rw [hq] at h; cases h
              | ok q =>
                rw [hq] at h
                cases h
                have := ih _ (by simp; omega) hq rfl
                obtain ⟨s, rest, rfl⟩ : ∃ s r, rest = s :: r := by cases rest; exact absurd rfl hr; exact ⟨_, _, rfl⟩
                simpa using this
            · omega
            · omega
          · cases hq : specF l rest o1 with
            | error e => rw [hq] at h; cases h
            | ok q =>
              rw [hq] at h
              cases h
              have := ih _ (by simp) hq rfl
              simpa using this

end

theorem resort_eq (rem : Argv) (done : List Str) (p : Str) (k : Nat) :
    resort rem.length (1 + done.length + k) (some p :: done.map some ++ (List.replicate k none ++ rem), 1 + done.length) =
      .ok (some p :: (done ++ rem.filterMap id).map some ++ List.replicate (k + rem.length - (rem.filterMap id).length) none,
        1 + done.length + (rem.filterMap id).length) := by
  induction rem generalizing done k with
  | nil => simp [resort]
  | cons a rem ih =>
    have hrd := rd_mid (some p :: done.map some ++ List.replicate k none) a rem
    have hl : (some p :: done.map some ++ List.replicate k none).length = 1 + done.length + k := by simp; omega
    rw [hl, List.append_assoc] at hrd
    rw [List.length_cons, resort, resortStep]
    simp only
    rw [hrd]
    cases a with
    | none =>
      simp only [run_ok_bind, run_pure]
      have := ih done (k + 1)
      rw [List.replicate_succ'] at this
      simp only [List.append_assoc, List.cons_append, List.nil_append, ← Nat.add_assoc] at this ⊢
      rw [this]
      simp [Nat.add_right_comm]
    | some a =>
      simp only [run_ok_bind, run_pure]
      cases k with
      | zero =>
        have hw := wr_mid (some p :: done.map some) (some a) (some a) rem
        have hl : (some p :: done.map some).length = 1 + done.length := by simp; omega
        rw [hl] at hw
        simp only [List.replicate_zero, List.nil_append]
        rw [hw, run_ok_bind, if_neg (by omega)]
        have := ih (done ++ [a]) 0
        simp only [List.length_append, List.length_cons, List.length_nil, List.map_append, List.map_cons, List.map_nil,
          List.replicate_zero, List.nil_append, List.append_assoc, List.cons_append, Nat.add_zero, Nat.zero_add,
          ← Nat.add_assoc] at this ⊢
        rw [run_ok_bind, this]
        simp
        omega
      | succ k =>
        have hw := wr_mid (some p :: done.map some) none (some a) (List.replicate k none ++ some a :: rem)
        have hl : (some p :: done.map some).length = 1 + done.length := by simp; omega
        rw [hl] at hw
        simp only [List.replicate_succ, List.cons_append] at hw ⊢
        rw [hw, run_ok_bind, if_pos (by omega)]
        have hw2 := wr_mid (some p :: done.map some ++ some a :: List.replicate k none) (some a) none rem
        have hl2 : (some p :: done.map some ++ some a :: List.replicate k none).length = 1 + done.length + (k + 1) := by
          simp; omega
        rw [hl2] at hw2
        simp only [List.append_assoc, List.cons_append] at hw2
        rw [hw2, run_ok_bind, run_ok_bind]
        have := ih (done ++ [a]) (k + 1)
        rw [List.replicate_succ'] at this
        simp only [List.length_append, List.length_cons, List.length_nil, List.map_append, List.map_cons, List.map_nil,
          List.nil_append, List.append_assoc, List.cons_append, Nat.zero_add, ← Nat.add_assoc] at this ⊢
        have e : 1 + done.length + k + 1 + 1 = 1 + done.length + 1 + k + 1 := by omega
        rw [e, this]
        simp
        omega

section
variable {D : Type} [Zero D] [One D] [Neg D] [LT D] [DecidableLT D]

theorem parse_eq (atof : Str → D) (p : Str) (args : List Str) (o : Opts D) :
    parse atof (some p :: args.map some) o =
      (do
        let (m, o) ← specF (optTable atof) args o
        pure (some p :: (m.filterMap id).map some ++ List.replicate (args.length - (m.filterMap id).length) none,
          (m.filterMap id).length + 1, o)) := by
  unfold parse
  have h := parseLoop_eq atof (args.length + 1) [some p] args o (by omega)
  simp only [List.length_cons, List.length_nil, List.cons_append, List.nil_append, Nat.zero_add] at h
  simp only [List.length_cons, List.length_map]
  rw [Nat.add_comm args.length 1] at h ⊢
  rw [h]
  cases hs : specF (optTable atof) args o with
  | error e => rfl
  | ok q =>
    obtain ⟨m, o1⟩ := q
    simp only [run_ok_bind, run_pure]
    have := resort_eq m [] p 0
    have hl := specF_length hs
    simp only [List.length_nil, List.map_nil, List.replicate_zero, List.nil_append, Nat.add_zero, Nat.zero_add, List.cons_append,
      hl] at this
    rw [show 1 + args.length - 1 = args.length by omega, this]
    simp [Nat.add_comm]

end

end Panda.Tool

namespace Panda.Tool

section
variable {D : Type} [Zero D] [One D] [Neg D] [LT D] [DecidableLT D]

theorem flag_iff (atof : Str → D) (n : String) (f : Opts D → Opts D) : Flag n f ↔ (n.toList, Action.flag f) ∈ optTable atof := by
  constructor
  · rintro ⟨⟩ <;> simp [optTable]
  · intro h
    simp only [optTable, List.mem_cons, Prod.mk.injEq, String.toList_inj, reduceCtorEq, and_false, false_or, Action.flag.injEq,
      List.not_mem_nil, or_false] at h
    rcases h with ⟨rfl, rfl⟩ | ⟨rfl, rfl⟩ | ⟨rfl, rfl⟩ | ⟨rfl, rfl⟩ | ⟨rfl, rfl⟩ | ⟨rfl, rfl⟩ | ⟨rfl, rfl⟩ | ⟨rfl, rfl⟩ | ⟨rfl, rfl⟩
    · exact .linear
    · exact .fpu
    · exact .scanVerbose
    · exact .filterImplVerbose
    · exact .verbose
    · exact .up
    · exact .down
    · exact .sub
    · exact .over

theorem atoi_range {s : Str} {n : Int} (h : atoi s = .ok n) : -2 ^ 31 ≤ n ∧ n < 2 ^ 31 := by
  unfold atoi at h
  split at h
  · cases h; assumption
  · cases h

theorem setBlockSize_iff (atof : Str → D) (s : Str) (o o1 : Opts D) :
    setBlockSize s o = .ok o1 ↔ Value atof "--block-size" s o o1 := by
  unfold setBlockSize
  constructor
  · intro h
    cases hn : atoi s with
    | error e => rw [hn] at h; cases h
    | ok n =>
      rw [hn] at h
      have hr := atoi_range hn
      simp only [run_ok_bind, run_pure, Except.ok.injEq] at h
      subst h
      by_cases h1 : (n % 2 ^ 32).toNat % 2 = 1
      · by_cases h2 : n = -1
        · subst h2
          have := Value.blockSizeMin (atof := atof) s (-1) o hn (Or.inr rfl)
          simpa [u32] using this
        · have hb : u32 ((n % 2 ^ 32).toNat + 1) = ((n + 1) % 2 ^ 32).toNat := by unfold u32; omega
          have := Value.blockSizeOdd (atof := atof) s n o ((n + 1) % 2 ^ 32).toNat hn (by omega) (by omega) (by omega) (by omega)
          rw [if_pos h1, hb, if_neg (by omega)]
          exact this
      · by_cases h2 : n = 0
        · subst h2
          have := Value.blockSizeMin (atof := atof) s 0 o hn (Or.inl rfl)
          simpa using this
        · have := Value.blockSize (atof := atof) s n o (n % 2 ^ 32).toNat hn (by omega) (by omega) (by omega) (by omega)
          rw [if_neg h1, if_neg (by omega)]
          exact this
  · generalize hv : "--block-size" = v
    intro h
    cases h with
    | blockSize _ n _ b hn h1 h2 h3 h4 =>
      rw [hn]
      have : (n % 2 ^ 32).toNat = b := by omega
      have e : (if b % 2 = 1 then u32 (b + 1) else b) = b := if_neg (by omega)
      simp only [run_ok_bind, this, e]
      rw [if_neg (by omega)]
      rfl
    | blockSizeOdd _ n _ b hn h1 h2 h3 h4 =>
      rw [hn]
      have e : (n % 2 ^ 32).toNat % 2 = 1 := by omega
      have : u32 ((n % 2 ^ 32).toNat + 1) = b := by unfold u32; omega
      simp only [run_ok_bind, e, if_true, this]
      rw [if_neg (by omega)]
      rfl
    | blockSizeMin _ n _ hn h =>
      rw [hn]
      rcases h with rfl | rfl <;> rfl
    | _ => exact absurd hv (by decide)

theorem setPrecision_iff (atof : Str → D) (s : Str) (o o1 : Opts D) :
    setPrecision s o = .ok o1 ↔ Value atof "--precision" s o o1 := by
  unfold setPrecision
  constructor
  · intro h
    cases hn : atoi s with
    | error e => rw [hn] at h; cases h
    | ok n =>
      rw [hn] at h
      simp only [run_ok_bind] at h
      split at h
      · rename_i hm
        cases h
        refine .precision s n.toNat o ?_ ?_
        · rw [hn]; congr 1; simp at hm; omega
        · simp at hm ⊢; omega
      · cases h
  · generalize hv : "--precision" = v
    intro h
    cases h with
    | precision _ p _ hn hm =>
      rw [hn]
      simp only [run_ok_bind]
      rw [if_pos (by simp at hm ⊢; omega)]
      rfl
    | _ => exact absurd hv (by decide)

theorem setFreqScan_iff (atof : Str → D) (s : Str) (o o1 : Opts D) :
    setFreqScan atof s o = .ok o1 ↔ Value atof "--freq-scan" s o o1 := by
  unfold setFreqScan
  constructor
  · intro h
    split at h
    · cases h
    · rename_i hlt
      cases h
      revert hlt
      unfold scanOpts
      split
      · rename_i a b c l ht
        intro hlt
        exact .freqScan s a b c o (by simp [tokens_part, ht]) (by simp [tokens_part, ht]) (by simp [tokens_part, ht]) hlt
      · rename_i hx
        intro hlt
        refine .freqScanAgain s o ?_ hlt
        intro c hc
        rw [tokens_part] at hc
        match ht : tokens [] s, hc with
        | a :: b :: c :: l, _ => exact hx a b c l ht
  · generalize hv : "--freq-scan" = v
    intro h
    cases h with
    | freqScan _ a b c _ ha hb hc hlt =>
      rw [tokens_part] at ha hb hc
      have e : scanOpts atof s o = { o with freqMin := atof a, freqMax := atof b, freqInc := atof c } := by
        unfold scanOpts
        match ht : tokens [] s, ha, hb, hc with
        | a' :: b' :: c' :: l, ha, hb, hc =>
          simp at ha hb hc
          subst ha hb hc
          rfl
      rw [e, if_neg hlt]
      rfl
    | freqScanAgain _ _ hp hlt =>
      have e : scanOpts atof s o = o := by
        unfold scanOpts
        split
        · rename_i a b c l ht
          exact absurd (by simp [tokens_part, ht]) (hp c)
        · rfl
      rw [e, if_neg hlt]
      rfl
    | _ => exact absurd hv (by decide)

theorem setMaxThreshold_iff (atof : Str → D) (s : Str) (o o1 : Opts D) :
    setMaxThreshold atof s o = .ok o1 ↔ Value atof "--max-threshold" s o o1 := by
  unfold setMaxThreshold
  constructor
  · intro h
    cases h
    split
    · exact .thresholdNeg s o ‹_›
    · exact .threshold s o ‹_›
  · generalize hv : "--max-threshold" = v
    intro h
    cases h with
    | threshold _ _ h => rw [if_neg h]; rfl
    | thresholdNeg _ _ h => rw [if_pos h]; rfl
    | _ => exact absurd hv (by decide)

theorem frequency_iff (atof : Str → D) (s : Str) (o o1 : Opts D) :
    (Except.ok { o with frequency := atof s } : Run (Opts D)) = .ok o1 ↔ Value atof "--frequency" s o o1 := by
  constructor
  · intro h
    cases h
    exact .frequency s o
  · generalize hv : "--frequency" = v
    intro h
    cases h with
    | frequency => rfl
    | _ => exact absurd hv (by decide)

theorem value_iff (atof : Str → D) {n : String} {g : Str → Opts D → Run (Opts D)} (h : (n.toList, Action.value g) ∈ optTable atof)
    (s : Str) (o o1 : Opts D) : g s o = .ok o1 ↔ Value atof n s o o1 := by
  simp only [optTable, List.mem_cons, Prod.mk.injEq, String.toList_inj, reduceCtorEq, and_false, false_or, Action.value.injEq,
    List.not_mem_nil, or_false] at h
  rcases h with ⟨rfl, rfl⟩ | ⟨rfl, rfl⟩ | ⟨rfl, rfl⟩ | ⟨rfl, rfl⟩ | ⟨rfl, rfl⟩
  · exact setBlockSize_iff atof s o o1
  · exact setPrecision_iff atof s o o1
  · exact setFreqScan_iff atof s o o1
  · exact frequency_iff atof s o o1
  · exact setMaxThreshold_iff atof s o o1

theorem value_mem (atof : Str → D) {n : String} {s : Str} {o o1 : Opts D} (h : Value atof n s o o1) :
    ∃ g, (n.toList, Action.value g) ∈ optTable atof := by
  cases h <;> simp [optTable]

theorem table_string (atof : Str → D) {p : Str × Action D} (h : p ∈ optTable atof) : ∃ n ∈ optionNames, p.1 = n.toList := by
  simp only [optTable, List.mem_cons, List.not_mem_nil, or_false] at h
  rcases h with rfl | rfl | rfl | rfl | rfl | rfl | rfl | rfl | rfl | rfl | rfl | rfl | rfl | rfl <;>
    exact ⟨_, by simp [optionNames], rfl⟩

theorem string_table (atof : Str → D) {n : String} (h : n ∈ optionNames) : ∃ act, (n.toList, act) ∈ optTable atof := by
  simp only [optionNames, List.mem_cons, List.not_mem_nil, or_false] at h
  rcases h with rfl | rfl | rfl | rfl | rfl | rfl | rfl | rfl | rfl | rfl | rfl | rfl | rfl | rfl <;> simp [optTable]

theorem table_nodup (atof : Str → D) : ((optTable atof).map (·.1)).Nodup := by
  simp only [optTable, List.map_cons, List.map_nil]
  decide

theorem lookup_mem {α β : Type} [BEq α] [LawfulBEq α] {l : List (α × β)} (hl : (l.map (·.1)).Nodup) (a : α) (b : β) :
    l.lookup a = some b ↔ (a, b) ∈ l := by
  induction l with
  | nil => simp
  | cons p l ih =>
    obtain ⟨x, y⟩ := p
    rw [List.map_cons, List.nodup_cons] at hl
    rw [List.lookup_cons]
    by_cases h : a = x
    · subst h
      have : (a, b) ∉ l := fun hm => hl.1 (List.mem_map.2 ⟨_, hm, rfl⟩)
      simp [this, eq_comm]
    · have : (a == x) = false := by simpa using h
      rw [this, ih hl.2]
      simp [h]

theorem noEq {n : String} (h : n ∈ optionNames) : '=' ∉ n.toList := by
  revert n
  decide

theorem lookup_none (atof : Str → D) (a : Str) : (optTable atof).lookup (base a) = none ↔ ¬ IsOption a := by
  rw [Option.eq_none_iff_forall_not_mem]
  constructor
  · rintro h ⟨n, hn, ha⟩
    obtain ⟨act, hm⟩ := string_table atof hn
    rw [← (base_eq (noEq hn) a)] at ha
    exact h act (by rw [Option.mem_def, lookup_mem (table_nodup atof), ha]; exact hm)
  · intro h act hm
    rw [Option.mem_def, lookup_mem (table_nodup atof)] at hm
    obtain ⟨n, hn, e⟩ := table_string atof hm
    exact h ⟨n, hn, (base_eq (noEq hn) a).1 e⟩

/-- One argument, by the grammar. -/
inductive Step (atof : Str → D) (a : Str) (rest : List Str) (o : Opts D) : Nat → Opts D → Prop where
  | other : ¬ IsOption a → Step atof a rest o 0 o
  | flag {n : String} {f : Opts D → Opts D} : Flag n f → a = n.toList → Step atof a rest o 1 (f o)
  | valueEq {n : String} {s : Str} {o1 : Opts D} : Value atof n s o o1 → a = n.toList ++ '=' :: s → Step atof a rest o 1 o1
  | valueNext {n : String} {s : Str} {r : List Str} {o1 : Opts D} : Value atof n s o o1 → a = n.toList → rest = s :: r →
      Step atof a rest o 2 o1

theorem append_ne_self {a b : Str} {c : Char} : a ++ c :: b ≠ a := by simp

theorem stepF_iff (atof : Str → D) (a : Str) (rest : List Str) (o : Opts D) (k : Nat) (o1 : Opts D) :
    stepF (optTable atof) a rest o = .ok (k, o1) ↔ Step atof a rest o k o1 := by
  constructor
  · intro h
    unfold stepF at h
    split at h
    · rename_i hl
      cases h
      exact .other ((lookup_none atof a).1 hl)
    · rename_i f hl
      rw [lookup_mem (table_nodup atof)] at hl
      obtain ⟨n, hn, e⟩ := table_string atof hl
      simp only at e
      rw [e] at hl h
      split at h
      · rename_i ha
        cases h
        exact .flag ((flag_iff atof n f).2 hl) ha
      · cases h
    · rename_i g hl
      rw [lookup_mem (table_nodup atof)] at hl
      obtain ⟨n, hn, e⟩ := table_string atof hl
      simp only at e
      rcases (base_eq (noEq hn) a).1 e with ha | ⟨s, ha⟩
      · rw [e] at hl h
        rw [if_pos ha] at h
        cases rest with
        | nil => cases h
        | cons s r =>
          simp only at h
          cases hg : g s o <;> rw [hg] at h <;> cases h
          exact .valueNext ((value_iff atof hl s o _).1 hg) ha rfl
      · rw [e] at hl h
        rw [if_neg (by rw [ha]; exact append_ne_self)] at h
        have hd : a.drop (n.toList.length + 1) = s := by rw [ha]; simp
        rw [hd] at h
        cases hg : g s o <;> rw [hg] at h <;> cases h
        exact .valueEq ((value_iff atof hl s o _).1 hg) ha
  · intro h
    unfold stepF
    cases h with
    | other h => rw [(lookup_none atof a).2 h]
    | @flag n f hf ha =>
      have hm := (flag_iff atof n f).1 hf
      have hne := optTable_names atof _ hm
      have hb : base a = n.toList := (base_eq hne a).2 (Or.inl ha)
      rw [hb, (lookup_mem (table_nodup atof) _ _).2 hm]
      simp [ha]
    | @valueEq n s _ hv ha =>
      obtain ⟨g, hm⟩ := value_mem atof hv
      have hne := optTable_names atof _ hm
      have hb : base a = n.toList := (base_eq hne a).2 (Or.inr ⟨s, ha⟩)
      rw [hb, (lookup_mem (table_nodup atof) _ _).2 hm]
      have hd : a.drop (n.toList.length + 1) = s := by rw [ha]; simp
      simp only
      rw [if_neg (by rw [ha]; exact append_ne_self), hd, (value_iff atof hm s o _).2 hv]
      rfl
    | @valueNext n s r _ hv ha hr =>
      obtain ⟨g, hm⟩ := value_mem atof hv
      have hne := optTable_names atof _ hm
      have hb : base a = n.toList := (base_eq hne a).2 (Or.inl ha)
      rw [hb, (lookup_mem (table_nodup atof) _ _).2 hm, hr]
      simp only
      rw [if_pos ha, (value_iff atof hm s o _).2 hv]
      rfl

theorem not_help {n : String} (h : n ∈ optionNames) (s : Str) : n.toList ≠ "--help".toList ∧ n.toList ≠ "-h".toList ∧
    n.toList ++ '=' :: s ≠ "--help".toList ∧ n.toList ++ '=' :: s ≠ "-h".toList := by
  refine ⟨by revert n; decide, by revert n; decide, ?_, ?_⟩
  · intro e
    have : '=' ∈ "--help".toList := by rw [← e]; simp
    exact absurd this (by decide)
  · intro e
    have : '=' ∈ "-h".toList := by rw [← e]; simp
    exact absurd this (by decide)

theorem flag_name {n : String} {f : Opts D → Opts D} (h : Flag n f) : n ∈ optionNames := by cases h <;> simp [optionNames]

theorem value_name {atof : Str → D} {n : String} {s : Str} {o o1 : Opts D} (h : Value atof n s o o1) : n ∈ optionNames := by
  cases h <;> simp [optionNames]

theorem specF_parses (atof : Str → D) {args : List Str} {o o' : Opts D} {m : Argv} (h : specF (optTable atof) args o = .ok (m, o')) :
    Parses atof args o (m.filterMap id) o' := by
  induction hn : args.length using Nat.strongRecOn generalizing args o m with
  | _ n ih =>
    subst hn
    cases args with
    | nil => rw [specF] at h; cases h; exact .nil _
    | cons a rest =>
      rw [specF] at h
      split at h
      · cases h
      · rename_i hh
        cases hs : stepF (optTable atof) a rest o with
        | error e => rw [hs] at h; cases h
        | ok q =>
          obtain ⟨k, o1⟩ := q
          rw [hs] at h
          simp only [run_ok_bind] at h
          rw [stepF_iff] at hs
          split at h
          · rename_i h2
            cases hq : specF (optTable atof) (rest.drop 1) o1 with
            | error e => rw [hq] at h; cases h
            | ok q =>
              rw [hq] at h
              cases h
              have := ih _ (by simp; omega) hq rfl
              subst h2
              cases hs with
              | valueNext hv ha hr =>
                subst ha hr
                exact .valueNext hv (by simpa using this)
          · rename_i h2
            cases hq : specF (optTable atof) rest o1 with
            | error e => rw [hq] at h; cases h
            | ok q =>
              rw [hq] at h
              cases h
              have := ih _ (by simp) hq rfl
              cases hs with
              | other ho => exact .other ho (fun e => hh (Or.inl e)) (fun e => hh (Or.inr e)) (by simpa using this)
              | flag hf ha => subst ha; exact .flag hf (by simpa using this)
              | valueEq hv ha => subst ha; exact .valueEq hv (by simpa using this)
              | valueNext => exact absurd rfl h2

theorem parses_specF (atof : Str → D) {args rest : List Str} {o o' : Opts D} (h : Parses atof args o rest o') :
    ∃ m, specF (optTable atof) args o = .ok (m, o') ∧ m.filterMap id = rest := by
  induction h with
  | nil o => exact ⟨[], by rw [specF], rfl⟩
  | @flag n f args rest o o' hf _ ih =>
    obtain ⟨m, hm, hr⟩ := ih
    have hn := not_help (flag_name hf) []
    refine ⟨none :: m, ?_, by simpa using hr⟩
    rw [specF, if_neg (not_or.2 ⟨hn.1, hn.2.1⟩), (stepF_iff atof _ _ o 1 _).2 (.flag hf rfl)]
    simp [hm]
  | @valueNext n s args rest o o1 o' hv _ ih =>
    obtain ⟨m, hm, hr⟩ := ih
    have hn := not_help (value_name hv) []
    refine ⟨none :: none :: m, ?_, by simpa using hr⟩
    rw [specF, if_neg (not_or.2 ⟨hn.1, hn.2.1⟩), (stepF_iff atof _ _ o 2 _).2 (.valueNext hv rfl rfl)]
    simp [hm]
  | @valueEq n s args rest o o1 o' hv _ ih =>
    obtain ⟨m, hm, hr⟩ := ih
    have hn := not_help (value_name hv) s
    refine ⟨none :: m, ?_, by simpa using hr⟩
    rw [specF, if_neg (not_or.2 hn.2.2), (stepF_iff atof _ _ o 1 _).2 (.valueEq hv rfl)]
    simp [hm]
  | @other a args rest o o' ho h1 h2 _ ih =>
    obtain ⟨m, hm, hr⟩ := ih
    refine ⟨some a :: m, ?_, by simpa using hr⟩
    rw [specF, if_neg (not_or.2 ⟨h1, h2⟩), (stepF_iff atof _ _ o 0 _).2 (.other ho)]
    simp [hm]

theorem stepF_stop (atof : Str → D) {a : Str} {rest : List Str} {o : Opts D} {e : Stop} (h : stepF (optTable atof) a rest o = .error e) :
    e = .exit 1 ∨ (e = .ub .overflow ∧ ∃ s, (a = "--block-size".toList ++ '=' :: s ∨ a = "--precision".toList ++ '=' :: s ∨
      ((a = "--block-size".toList ∨ a = "--precision".toList) ∧ ∃ r, rest = s :: r)) ∧ atoi s = .error (.ub .overflow)) := by
  have hat : ∀ s e, atoi s = .error e → e = .ub .overflow := by
    intro s e h
    unfold atoi at h
    split at h
    · cases h
    · cases h; rfl
  have hval : ∀ (n : String) (g : Str → Opts D → Run (Opts D)) (s : Str), (n.toList, Action.value g) ∈ optTable atof →
      g s o = .error e → e = .exit 1 ∨ (e = .ub .overflow ∧ (n = "--block-size" ∨ n = "--precision") ∧
        atoi s = .error (.ub .overflow)) := by
    intro n g s hm hg
    simp only [optTable, List.mem_cons, Prod.mk.injEq, String.toList_inj, reduceCtorEq, and_false, false_or, Action.value.injEq,
      List.not_mem_nil, or_false] at hm
    rcases hm with ⟨rfl, rfl⟩ | ⟨rfl, rfl⟩ | ⟨rfl, rfl⟩ | ⟨rfl, rfl⟩ | ⟨rfl, rfl⟩
    · unfold setBlockSize at hg
      cases hn : atoi s with
      | error e' =>
        rw [hn] at hg
        cases hg
        have := hat s e hn
        subst this
        exact Or.inr ⟨rfl, Or.inl rfl, rfl⟩
      | ok n => rw [hn] at hg; cases hg
    · unfold setPrecision at hg
      cases hn : atoi s with
      | error e' =>
        rw [hn] at hg
        cases hg
        have := hat s e hn
        subst this
        exact Or.inr ⟨rfl, Or.inr rfl, rfl⟩
      | ok n =>
        rw [hn] at hg
        simp only [run_ok_bind] at hg
        split at hg
        · cases hg
        · cases hg; exact Or.inl rfl
    · unfold setFreqScan at hg
      split at hg
      · cases hg; exact Or.inl rfl
      · cases hg
    · cases hg
    · cases hg
  unfold stepF at h
  split at h
  · cases h
  · split at h
    · cases h
    · cases h; exact Or.inl rfl
  · rename_i g hl
    rw [lookup_mem (table_nodup atof)] at hl
    obtain ⟨n, hn, e'⟩ := table_string atof hl
    simp only at e'
    rcases (base_eq (noEq hn) a).1 e' with ha | ⟨s, ha⟩
    · rw [e'] at hl h
      rw [if_pos ha] at h
      cases rest with
      | nil => cases h; exact Or.inl rfl
      | cons s r =>
        simp only at h
        cases hg : g s o with
        | ok => rw [hg] at h; cases h
        | error e2 =>
          rw [hg] at h
          cases h
          rcases hval n g s hl hg with h | ⟨h1, h2, h3⟩
          · exact Or.inl h
          · refine Or.inr ⟨h1, s, Or.inr (Or.inr ⟨?_, r, rfl⟩), h3⟩
            rcases h2 with rfl | rfl
            · exact Or.inl ha
            · exact Or.inr ha
    · rw [e'] at hl h
      rw [if_neg (by rw [ha]; exact append_ne_self)] at h
      have hd : a.drop (n.toList.length + 1) = s := by rw [ha]; simp
      rw [hd] at h
      cases hg : g s o with
      | ok => rw [hg] at h; cases h
      | error e2 =>
        rw [hg] at h
        cases h
        rcases hval n g s hl hg with h | ⟨h1, h2, h3⟩
        · exact Or.inl h
        · refine Or.inr ⟨h1, s, ?_, h3⟩
          rcases h2 with rfl | rfl
          · exact Or.inl ha
          · exact Or.inr (Or.inl ha)

/-- If the parser stops, it has read a part of the arguments before. -/
theorem specF_stop (atof : Str → D) {args : List Str} {o : Opts D} {e : Stop} (h : specF (optTable atof) args o = .error e) :
    ∃ pre a rest left o1, args = pre ++ a :: rest ∧ Parses atof pre o left o1 ∧
      ((e = .exit 0 ∧ (a = "--help".toList ∨ a = "-h".toList)) ∨
       (¬ (a = "--help".toList ∨ a = "-h".toList) ∧ stepF (optTable atof) a rest o1 = .error e)) := by
  induction hn : args.length using Nat.strongRecOn generalizing args o with
  | _ n ih =>
    subst hn
    cases args with
    | nil => rw [specF] at h; cases h
    | cons a rest =>
      rw [specF] at h
      split at h
      · rename_i hh
        cases h
        exact ⟨[], a, rest, [], o, rfl, .nil o, Or.inl ⟨rfl, hh⟩⟩
      · rename_i hh
        cases hs : stepF (optTable atof) a rest o with
        | error e' =>
          have hs' := hs
          rw [hs] at h
          cases h
          exact ⟨[], a, rest, [], o, rfl, .nil o, Or.inr ⟨hh, hs'⟩⟩
        | ok q =>
          obtain ⟨k, o1⟩ := q
          rw [hs] at h
          simp only [run_ok_bind] at h
          rw [stepF_iff] at hs
          split at h
          · rename_i h2
            cases hq : specF (optTable atof) (rest.drop 1) o1 with
            | ok q => rw [hq] at h; cases h
            | error e' =>
              rw [hq] at h
              cases h
              obtain ⟨pre, b, r, left, o2, h1, h3, h4⟩ := ih _ (by simp; omega) hq rfl
              subst h2
              cases hs with
              | valueNext hv ha hr =>
                subst ha hr
                simp only [List.drop_succ_cons, List.drop_zero] at h1
                exact ⟨_, b, r, _, o2, by rw [h1]; rfl, .valueNext hv h3, h4⟩
          · rename_i h2
            cases hq : specF (optTable atof) rest o1 with
            | ok q => rw [hq] at h; cases h
            | error e' =>
              rw [hq] at h
              cases h
              obtain ⟨pre, b, r, left, o2, h1, h3, h4⟩ := ih _ (by simp) hq rfl
              cases hs with
              | other ho =>
                exact ⟨_, b, r, _, o2, by rw [h1]; rfl, .other ho (fun e => hh (Or.inl e)) (fun e => hh (Or.inr e)) h3, h4⟩
              | flag hf ha => subst ha; exact ⟨_, b, r, _, o2, by rw [h1]; rfl, .flag hf h3, h4⟩
              | valueEq hv ha => subst ha; exact ⟨_, b, r, _, o2, by rw [h1]; rfl, .valueEq hv h3, h4⟩
              | valueNext => exact absurd rfl h2

end

end Panda.Tool

namespace Panda.Tool

section
variable {D : Type} [Zero D] [One D] [Neg D] [LT D] [DecidableLT D]

theorem Parses.append {atof : Str → D} {a b ra rb : List Str} {o o1 o2 : Opts D} (h : Parses atof a o ra o1)
    (h' : Parses atof b o1 rb o2) : Parses atof (a ++ b) o (ra ++ rb) o2 := by
  induction h with
  | nil o => exact h'
  | flag hf _ ih => exact .flag hf (ih h')
  | valueNext hv _ ih => exact .valueNext hv (ih h')
  | valueEq hv _ ih => exact .valueEq hv (ih h')
  | other ho h1 h2 _ ih => exact .other ho h1 h2 (ih h')

/-- The parser fails on what follows a complete list of options just as it fails without those. -/
theorem specF_append_error (atof : Str → D) {a ra b : List Str} {o o1 : Opts D} (h : Parses atof a o ra o1) {e : Stop}
    (hb : specF (optTable atof) b o1 = .error e) : specF (optTable atof) (a ++ b) o = .error e := by
  induction h with
  | nil o => exact hb
  | @flag n f args rest o o' hf _ ih =>
    have hn := not_help (flag_name hf) []
    rw [List.cons_append, specF, if_neg (not_or.2 ⟨hn.1, hn.2.1⟩), (stepF_iff atof _ _ o 1 _).2 (.flag hf rfl)]
    simp [ih hb]
  | @valueNext n s args rest o o1 o' hv _ ih =>
    have hn := not_help (value_name hv) []
    rw [List.cons_append, List.cons_append, specF, if_neg (not_or.2 ⟨hn.1, hn.2.1⟩),
      (stepF_iff atof _ _ o 2 _).2 (.valueNext hv rfl rfl)]
    simp [ih hb]
  | @valueEq n s args rest o o1 o' hv _ ih =>
    have hn := not_help (value_name hv) s
    rw [List.cons_append, specF, if_neg (not_or.2 hn.2.2), (stepF_iff atof _ _ o 1 _).2 (.valueEq hv rfl)]
    simp [ih hb]
  | @other a args rest o o' ho h1 h2 _ ih =>
    rw [List.cons_append, specF, if_neg (not_or.2 ⟨h1, h2⟩), (stepF_iff atof _ _ o 0 _).2 (.other ho)]
    simp [ih hb]

theorem parse_error (atof : Str → D) (p : Str) (args : List Str) (o : Opts D) (e : Stop) :
    parse atof (some p :: args.map some) o = .error e ↔ specF (optTable atof) args o = .error e := by
  rw [parse_eq]
  cases specF (optTable atof) args o <;> simp

end

end Panda.Tool
