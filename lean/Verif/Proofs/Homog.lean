import Verif.Proofs.Twin
import Verif.Spec.Shape

/-!
# Two runs with related samples

As in `Proofs/Twin.lean`, a run with pairs of samples is two runs. Here the fed samples need not be equal: signals are pairs of some
kind `D`, constants pairs of some kind `T`, and signals are only added, subtracted, and multiplied with constants from the right.
-/

set_option linter.unusedSectionVars false

namespace Panda

/-- Sums of products of signals in `D` and constants in `T` are signals in `E`. -/
structure Act {F : Type} [Zero F] [One F] [Add F] [Sub F] [Mul F] [Sample F] (T D E : F → Prop) : Prop where
  zeroT : T 0
  oneT : T 1
  zeroD : D 0
  incl : ∀ {a}, D a → E a
  add : ∀ {a b}, E a → E b → E (a + b)
  sub : ∀ {a b}, E a → E b → E (a - b)
  mul : ∀ {a b}, D a → T b → E (a * b)
  halfMul : ∀ {a}, D a → E (Sample.half * a)
  mulHalf : ∀ {a}, D a → E (a * Sample.half)

section act
variable {F : Type} [Zero F] [One F] [Add F] [Sub F] [Mul F] [Sample F] {T D E : F → Prop}

theorem seq_in {D : F → Prop} (h0 : D 0) {xs : List F} (h : ∀ x ∈ xs, D x) (i : Nat) : D (seq xs i) := by
  unfold Panda.seq
  by_cases hi : i < xs.length
  · rw [List.getD_eq_getElem?_getD, List.getElem?_eq_getElem hi]
    exact h _ (List.getElem_mem hi)
  · rw [List.getD_eq_getElem?_getD, List.getElem?_eq_none (by omega)]
    exact h0

theorem padded_in {D : F → Prop} (h0 : D 0) {x : Nat → F} (h : ∀ i, D (x i)) (O k : Nat) : D (padded O x k) := by
  unfold Panda.padded
  split
  · exact h0
  · exact h _

theorem Act.firScalar (H : Act T D E) {x t : Nat → F} (hx : ∀ i, D (x i)) (ht : ∀ i, T (t i)) (n : Nat) :
    E (firScalar x t n) := by
  induction n with
  | zero => exact H.incl H.zeroD
  | succ n ih => exact H.add ih (H.mul (hx _) (ht _))

theorem Act.delayedTap (H : Act T D E) {t : Nat → F} (ht : ∀ i, T (t i)) (O k j : Nat) : T (delayedTap t O k j) := by
  unfold Panda.delayedTap
  split
  · exact ht _
  · exact H.zeroT

theorem Act.firLane (H : Act T D E) {x t : Nat → F} (hx : ∀ i, D (x i)) (ht : ∀ i, T (t i)) (O k r n : Nat) :
    E (firLane x t O k r n) := by
  induction n with
  | zero => exact H.mul (hx _) (H.delayedTap ht _ _ _)
  | succ n ih => exact H.add ih (H.mul (hx _) (H.delayedTap ht _ _ _))

theorem Act.firVector (H : Act T D E) {x t : Nat → F} (hx : ∀ i, D (x i)) (ht : ∀ i, T (t i)) (O k : Nat) :
    E (firVector x t O k) :=
  H.add (H.add (H.add (H.firLane hx ht _ _ _ _) (H.firLane hx ht _ _ _ _)) (H.firLane hx ht _ _ _ _)) (H.firLane hx ht _ _ _ _)

theorem Act.firVal (H : Act T D E) {vec : Bool} {t X : Nat → F} {O N m : Nat} {v : F} (hX : ∀ i, D (X i)) (ht : ∀ i, T (t i))
    (h : FirVal vec t O X N m v) : E v := by
  rcases h with rfl | ⟨-, k, -, -, -, rfl⟩
  · exact H.firScalar (fun i => hX _) ht _
  · exact H.firVector (fun i => hX _) ht _ _

theorem Act.allpass (H : Act T D D) {a : F} (ha : T a) {x : Nat → F} (hx : ∀ i, D (x i)) (i : Nat) : D (allpass a x i) := by
  induction i with
  | zero => exact H.add (H.mul (H.sub (hx _) H.zeroD) ha) H.zeroD
  | succ n ih => exact H.add (H.mul (H.sub (hx _) ih) ha) (hx _)

theorem Act.branch (H : Act T D D) {c : Nat → F} (hc : ∀ i, T (c i)) {x : Nat → F} (hx : ∀ i, D (x i)) (b j i : Nat) :
    D (branch c b x j i) := by
  induction j generalizing i with
  | zero => exact hx _
  | succ j ih => exact H.allpass (hc _) ih i

theorem Act.iirBranch1 (H : Act T D D) {c : Nat → F} (hc : ∀ i, T (c i)) {x : Nat → F} (hx : ∀ i, D (x i)) (sse : Bool)
    (nc i : Nat) : D (iirBranch1 sse nc c x i) := by
  unfold Panda.iirBranch1
  split
  · exact H.allpass H.oneT (fun i => H.branch hc hx _ _ i) i
  · exact H.branch hc hx _ _ i

/-- FIR stages. -/
theorem Stage.Rel.actFirUp (H : Act T D E) {vec : Bool} {t : List F} (ht : ∀ x ∈ t, T x) {xs ys : List F} (hx : ∀ x ∈ xs, D x)
    (h : (Stage.firUp vec t).Rel xs ys) : ∀ y ∈ ys, E y := by
  refine Closed.of_seq fun i hi => ?_
  have hx := seq_in H.zeroD hx
  have ht := seq_in H.zeroT ht
  have hl := h.1
  rcases Nat.mod_two_eq_zero_or_one i with h2 | h2
  · obtain ⟨m, rfl⟩ : ∃ m, i = 2 * m := ⟨i / 2, by omega⟩
    exact H.firVal (padded_in H.zeroD hx _) ht (h.2 m (by omega)).1
  · obtain ⟨m, rfl⟩ : ∃ m, i = 2 * m + 1 := ⟨i / 2, by omega⟩
    rw [(h.2 m (by omega)).2]
    exact H.incl (padded_in H.zeroD hx _ _)

theorem Stage.Rel.actFirDown (H : Act T D E) {vec : Bool} {t : List F} (ht : ∀ x ∈ t, T x) {xs ys : List F} (hx : ∀ x ∈ xs, D x)
    (h : (Stage.firDown vec t).Rel xs ys) : ∀ y ∈ ys, E y := by
  refine Closed.of_seq fun i hi => ?_
  have hx := seq_in H.zeroD hx
  have ht := seq_in H.zeroT ht
  obtain ⟨v, h1, h2⟩ := h.2 i hi
  rw [h2]
  exact H.add (H.firVal (padded_in H.zeroD (fun i => hx _) _) ht h1) (H.halfMul (padded_in H.zeroD (fun i => hx _) _ _))

/-- Any stage, if the kind of the signals does not change. -/
theorem Stage.Rel.act (H : Act T D D) {s : Stage F} (hs : s.In T) {xs ys : List F} (hx : ∀ x ∈ xs, D x) (h : s.Rel xs ys) :
    ∀ y ∈ ys, D y := by
  cases s with
  | firUp vec t => exact h.actFirUp H hs hx
  | firDown vec t => exact h.actFirDown H hs hx
  | iirUp sse c =>
    refine Closed.of_seq fun i hi => ?_
    have hx := seq_in H.zeroD hx
    have hc := seq_in H.zeroT (show ∀ x ∈ c, T x from hs)
    have hl := h.1
    rcases Nat.mod_two_eq_zero_or_one i with h2 | h2
    · obtain ⟨m, rfl⟩ : ∃ m, i = 2 * m := ⟨i / 2, by omega⟩
      rw [(h.2 m (by omega)).1]
      exact H.branch hc hx _ _ _
    · obtain ⟨m, rfl⟩ : ∃ m, i = 2 * m + 1 := ⟨i / 2, by omega⟩
      rw [(h.2 m (by omega)).2]
      exact H.iirBranch1 hc hx _ _ _
  | iirDown sse c =>
    refine Closed.of_seq fun i hi => ?_
    have hx := seq_in H.zeroD hx
    have hc := seq_in H.zeroT (show ∀ x ∈ c, T x from hs)
    rw [h.2 i hi]
    have h1 := H.iirBranch1 hc (x := evens (Panda.seq xs)) (fun i => hx _) sse c.length i
    have h0 : D (branchOut c.length (Panda.seq c) 0 (odds (Panda.seq xs)) i) :=
      H.branch hc (x := odds (Panda.seq xs)) (fun i => hx _) 0 _ i
    split
    · exact H.mulHalf (H.add h1 h0)
    · exact H.halfMul (H.add h0 h1)

theorem CascadeRel.act (H : Act T D D) {ss : List (Stage F)} (hs : ∀ s ∈ ss, s.In T) {xs ys : List F}
    (hx : ∀ x ∈ xs, D x) (h : CascadeRel ss xs ys) : ∀ y ∈ ys, D y := by
  induction ss generalizing xs with
  | nil => cases h; exact hx
  | cons s ss ih =>
    obtain ⟨zs, h1, h2⟩ := h
    exact ih (fun s hs' => hs s (by simp [hs'])) (h1.act H (hs s (by simp)) hx) h2

theorem stages_in_of {T : F → Prop} (H : ∀ q, T (Sample.ofDouble q)) (cfg : Config) : ∀ s ∈ cfg.stages (F := F), s.In T := by
  intro s hs
  have : ∃ k, s ∈ cfg.stage (F := F) k := by
    unfold Config.stages at hs
    split at hs <;> simp only [List.mem_flatten, List.mem_map, List.mem_filter] at hs <;>
      obtain ⟨l, ⟨k, -, rfl⟩, hs⟩ := hs <;> exact ⟨k, hs⟩
  obtain ⟨k, hk⟩ := this
  unfold Config.stage at hk
  split at hk <;> simp only [List.mem_map] at hk <;> obtain ⟨t, -, rfl⟩ := hk <;>
    intro x hx <;> simp only [List.mem_map] at hx <;> obtain ⟨d, -, rfl⟩ := hx <;> exact H _

end act

section two
variable {F : Type} [Zero F] [One F] [Add F] [Sub F] [Mul F] [Sample F]

theorem twins_shape_a {l m : List (Op F)} (h : SameShape l m) : ListRel (OpRel fun (p : Two F) (x : F) => p.a = x) (twins l m) l := by
  induction l generalizing m with
  | nil =>
    cases m with
    | nil => exact .nil
    | cons _ _ => exact h.elim
  | cons o l ih =>
    cases m with
    | nil => cases o <;> exact h.elim
    | cons o' m =>
      cases o <;> cases o' <;> first | exact h.elim | skip
      · exact .cons ⟨⟨rfl, rfl, rfl, fun _ => rfl⟩, ⟨rfl, rfl, fun _ _ => rfl⟩, rfl, ⟨rfl, rfl, fun _ _ => rfl⟩⟩ (ih h.2)
      · exact .cons trivial (ih h)

theorem twins_shape_b {l m : List (Op F)} (h : SameShape l m) : ListRel (OpRel fun (p : Two F) (x : F) => p.b = x) (twins l m) m := by
  induction l generalizing m with
  | nil =>
    cases m with
    | nil => exact .nil
    | cons _ _ => exact h.elim
  | cons o l ih =>
    cases m with
    | nil => cases o <;> exact h.elim
    | cons o' m =>
      cases o <;> cases o' <;> first | exact h.elim | skip
      · obtain ⟨⟨h1, h2, h3, h4, h5, h6, h7, h8⟩, h9⟩ := h
        exact .cons ⟨⟨h6, h7, h8, fun _ => rfl⟩, ⟨h2, h3, fun _ _ => rfl⟩, h1, ⟨h4, h5, fun _ _ => rfl⟩⟩ (ih h9)
      · exact .cons trivial (ih h)

/-- The pairs fed are the pairs of the samples fed. -/
theorem twins_shape_fed {l m : List (Op F)} (h : SameShape l m) :
    fed l = (fed (twins l m)).map Two.a ∧ fed m = (fed (twins l m)).map Two.b := by
  unfold fed
  suffices ∀ acc : List (Two F), l.foldl fedStep (acc.map Two.a) = ((twins l m).foldl fedStep acc).map Two.a ∧
      m.foldl fedStep (acc.map Two.b) = ((twins l m).foldl fedStep acc).map Two.b from this []
  induction l generalizing m with
  | nil =>
    intro acc
    cases m with
    | nil => exact ⟨rfl, rfl⟩
    | cons _ _ => exact h.elim
  | cons o l ih =>
    intro acc
    cases m with
    | nil => cases o <;> exact h.elim
    | cons o' m =>
      cases o <;> cases o' <;> first | exact h.elim | skip
      · rename_i c d
        have := ih h.2 (fedStep acc (.process (c.twin d)))
        have e1 : (fedStep acc (.process (c.twin d))).map Two.a = fedStep (acc.map Two.a) (.process c) := by
          simp [fedStep, Call.samples, Call.twin, Buf.twin]
        have e2 : (fedStep acc (.process (c.twin d))).map Two.b = fedStep (acc.map Two.b) (.process d) := by
          simp [fedStep, Call.samples, Call.twin, Buf.twin, h.1.1]
        rw [e1, e2] at this
        exact this
      · exact ih h []

theorem SameShape.opOk {cfg : Config} {l m : List (Op F)} (h : SameShape l m) (hl : ∀ op ∈ l, cfg.OpOk op) : ∀ op ∈ m, cfg.OpOk op := by
  induction l generalizing m with
  | nil =>
    cases m with
    | nil => simp
    | cons _ _ => exact h.elim
  | cons o l ih =>
    have ho := hl o (by simp)
    have hl' : ∀ op ∈ l, cfg.OpOk op := fun op hop => hl op (by simp [hop])
    cases m with
    | nil => cases o <;> exact h.elim
    | cons o' m =>
      cases o <;> cases o' <;> first | exact h.elim | skip
      · rename_i c d
        obtain ⟨⟨h1, h2, h3, h4, h5, h6, h7, h8⟩, h9⟩ := h
        intro op hop
        rcases List.mem_cons.1 hop with rfl | hop
        · have ho : cfg.CallOk c := ho
          have : cfg.CallOk d := by
            obtain ⟨a1, a2, a3, a4, a5, a6, a7⟩ := ho
            rw [← h1] at a1 a2 a3 a4 a5 a6 a7
            rw [← h3] at a2 a7
            rw [← h5] at a3
            exact ⟨a1, a2, a3, a4, a5, a6, a7⟩
          exact this
        · exact ih h9 hl' op hop
      · intro op hop
        rcases List.mem_cons.1 hop with rfl | hop
        · trivial
        · exact ih h hl' op hop

/-- Two runs are a run with pairs. -/
theorem Config.session_pairs {cfg : Config} (hv : cfg.Valid) {l m : List (Op F)} (hok : ∀ op ∈ l, cfg.OpOk op) (h : SameShape l m) :
    ∃ r os r' os', cfg.session l = .ok (r, os) ∧ cfg.session m = .ok (r', os') ∧
      ∃ xs ys : List (Two F), CascadeRel cfg.stages xs ys ∧ fed l = xs.map Two.a ∧ fed m = xs.map Two.b ∧
        cfg.produced l os = ys.map Two.a ∧ cfg.produced m os' = ys.map Two.b := by
  have hok2 := twins_ok (m := m) hok
  obtain ⟨r2, os2, h2, hf, hrel⟩ := Config.session_spec hv hok2
  have ha := Config.session_rel compat_a cfg (twins_shape_a h)
  have hb := Config.session_rel compat_b cfg (twins_shape_b h)
  rw [h2] at ha hb
  cases e1 : cfg.session l with
  | error e => rw [e1] at ha; exact ha.elim
  | ok q =>
    cases e2 : cfg.session m with
    | error e => rw [e2] at hb; exact hb.elim
    | ok q' =>
      rw [e1] at ha
      rw [e2] at hb
      exact ⟨q.1, q.2, q'.1, q'.2, rfl, rfl, _, _, hrel, (twins_shape_fed h).1, (twins_shape_fed h).2,
        (produced_rel (twins_shape_a h) ha.2 hf hok2).eq_map, (produced_rel (twins_shape_b h) hb.2 hf hok2).eq_map⟩

/-- A map that commutes with sums, differences and products with constants commutes with the resampler. -/
structure Homog (φ : F → F) : Prop where
  zero : φ 0 = 0
  add : ∀ a b, φ (a + b) = φ a + φ b
  sub : ∀ a b, φ (a - b) = φ a - φ b
  mul : ∀ a c, φ (a * c) = φ a * c
  half : ∀ a, φ (Sample.half * a) = Sample.half * φ a

theorem Homog.act {φ : F → F} (H : Homog φ) :
    Act (fun p : Two F => p.a = p.b) (fun p => p.b = φ p.a) (fun p => p.b = φ p.a) where
  zeroT := rfl
  oneT := rfl
  zeroD := H.zero.symm
  incl := id
  add := by
    intro x y h1 h2
    show x.b + y.b = φ (x.a + y.a)
    rw [H.add, h1, h2]
  sub := by
    intro x y h1 h2
    show x.b - y.b = φ (x.a - y.a)
    rw [H.sub, h1, h2]
  mul := by
    intro x y h1 h2
    show x.b * y.b = φ (x.a * y.a)
    rw [H.mul, h1, h2]
  halfMul := by
    intro x h1
    show Sample.half * x.b = φ (Sample.half * x.a)
    rw [H.half, h1]
  mulHalf := by
    intro x h1
    show x.b * Sample.half = φ (x.a * Sample.half)
    rw [H.mul, h1]

theorem Config.session_homog {cfg : Config} (hv : cfg.Valid) {φ : F → F} (H : Homog φ) {l m : List (Op F)} (hok : ∀ op ∈ l, cfg.OpOk op)
    (h : SameShape l m) (hfed : fed m = (fed l).map φ) :
    ∃ r os r' os', cfg.session l = .ok (r, os) ∧ cfg.session m = .ok (r', os') ∧ cfg.produced m os' = (cfg.produced l os).map φ := by
  obtain ⟨r, os, r', os', h1, h2, xs, ys, hc, ha, hb, pa, pb⟩ := Config.session_pairs hv hok h
  refine ⟨r, os, r', os', h1, h2, ?_⟩
  rw [pa, pb, List.map_map]
  refine List.map_congr_left (hc.act H.act (stages_in_of (T := fun p : Two F => p.a = p.b) (fun _ => rfl) cfg) ?_)
  rw [ha, hb, List.map_map] at hfed
  exact List.map_inj_left.1 hfed

end two

end Panda
