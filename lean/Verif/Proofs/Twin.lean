import Verif.Proofs.Func
import Verif.Proofs.Param

/-!
# Two runs at once

A run with pairs of samples is two runs with samples; if the fed samples are equal in both, so are all produced ones,
because the relation between fed and produced samples involves nothing but them and constants.
-/

set_option linter.unusedSectionVars false

namespace Panda

/-- `D` is closed under the operations of the sample type. -/
structure Closed {F : Type} [Zero F] [One F] [Add F] [Sub F] [Mul F] [Sample F] (D : F → Prop) : Prop where
  zero : D 0
  one : D 1
  add : ∀ {a b}, D a → D b → D (a + b)
  sub : ∀ {a b}, D a → D b → D (a - b)
  mul : ∀ {a b}, D a → D b → D (a * b)
  half : D Sample.half
  ofDouble : ∀ q, D (Sample.ofDouble q)

section closed
variable {F : Type} [Zero F] [One F] [Add F] [Sub F] [Mul F] [Sample F] {D : F → Prop}

theorem Closed.seq (H : Closed D) {xs : List F} (h : ∀ x ∈ xs, D x) (i : Nat) : D (seq xs i) := by
  unfold Panda.seq
  by_cases hi : i < xs.length
  · rw [List.getD_eq_getElem?_getD, List.getElem?_eq_getElem hi]
    exact h _ (List.getElem_mem hi)
  · rw [List.getD_eq_getElem?_getD, List.getElem?_eq_none (by omega)]
    exact H.zero

theorem Closed.of_seq {xs : List F} (h : ∀ i < xs.length, D (Panda.seq xs i)) : ∀ x ∈ xs, D x := by
  intro x hx
  obtain ⟨i, hi, rfl⟩ := List.getElem_of_mem hx
  have := h i hi
  rwa [Panda.seq, List.getD_eq_getElem?_getD, List.getElem?_eq_getElem hi] at this

theorem Closed.padded (H : Closed D) {x : Nat → F} (h : ∀ i, D (x i)) (O k : Nat) : D (padded O x k) := by
  unfold Panda.padded
  split
  · exact H.zero
  · exact h _

theorem Closed.firScalar (H : Closed D) {x t : Nat → F} (hx : ∀ i, D (x i)) (ht : ∀ i, D (t i)) (n : Nat) :
    D (firScalar x t n) := by
  induction n with
  | zero => exact H.zero
  | succ n ih => exact H.add ih (H.mul (hx _) (ht _))

theorem Closed.delayedTap (H : Closed D) {t : Nat → F} (ht : ∀ i, D (t i)) (O k j : Nat) : D (delayedTap t O k j) := by
  unfold Panda.delayedTap
  split
  · exact ht _
  · exact H.zero

theorem Closed.firLane (H : Closed D) {x t : Nat → F} (hx : ∀ i, D (x i)) (ht : ∀ i, D (t i)) (O k r n : Nat) :
    D (firLane x t O k r n) := by
  induction n with
  | zero => exact H.mul (hx _) (H.delayedTap ht _ _ _)
  | succ n ih => exact H.add ih (H.mul (hx _) (H.delayedTap ht _ _ _))

theorem Closed.firVector (H : Closed D) {x t : Nat → F} (hx : ∀ i, D (x i)) (ht : ∀ i, D (t i)) (O k : Nat) :
    D (firVector x t O k) :=
  H.add (H.add (H.add (H.firLane hx ht _ _ _ _) (H.firLane hx ht _ _ _ _)) (H.firLane hx ht _ _ _ _)) (H.firLane hx ht _ _ _ _)

theorem Closed.firVal (H : Closed D) {vec : Bool} {t X : Nat → F} {O N m : Nat} {v : F} (hX : ∀ i, D (X i)) (ht : ∀ i, D (t i))
    (h : FirVal vec t O X N m v) : D v := by
  rcases h with rfl | ⟨-, k, -, -, -, rfl⟩
  · exact H.firScalar (fun i => hX _) ht _
  · exact H.firVector (fun i => hX _) ht _ _

theorem Closed.allpass (H : Closed D) {a : F} (ha : D a) {x : Nat → F} (hx : ∀ i, D (x i)) (i : Nat) : D (allpass a x i) := by
  induction i with
  | zero => exact H.add (H.mul (H.sub (hx _) H.zero) ha) H.zero
  | succ n ih => exact H.add (H.mul (H.sub (hx _) ih) ha) (hx _)

theorem Closed.branch (H : Closed D) {c : Nat → F} (hc : ∀ i, D (c i)) {x : Nat → F} (hx : ∀ i, D (x i)) (b j i : Nat) :
    D (branch c b x j i) := by
  induction j generalizing i with
  | zero => exact hx _
  | succ j ih => exact H.allpass (hc _) ih i

theorem Closed.iirBranch1 (H : Closed D) {c : Nat → F} (hc : ∀ i, D (c i)) {x : Nat → F} (hx : ∀ i, D (x i)) (sse : Bool)
    (nc i : Nat) : D (iirBranch1 sse nc c x i) := by
  unfold Panda.iirBranch1
  split
  · exact H.allpass H.one (fun i => H.branch hc hx _ _ i) i
  · exact H.branch hc hx _ _ i

/-- The constants of the stage are in `D`. -/
def Stage.In (D : F → Prop) : Stage F → Prop
  | .firUp _ t => ∀ x ∈ t, D x
  | .firDown _ t => ∀ x ∈ t, D x
  | .iirUp _ t => ∀ x ∈ t, D x
  | .iirDown _ t => ∀ x ∈ t, D x

theorem Stage.Rel.closed (H : Closed D) {s : Stage F} (hs : s.In D) {xs ys : List F} (hx : ∀ x ∈ xs, D x) (h : s.Rel xs ys) :
    ∀ y ∈ ys, D y := by
  refine Closed.of_seq fun i hi => ?_
  have hx := H.seq hx
  cases s with
  | firUp vec t =>
    have ht := H.seq (show ∀ x ∈ t, D x from hs)
    have hl := h.1
    rcases Nat.mod_two_eq_zero_or_one i with h2 | h2
    · obtain ⟨m, rfl⟩ : ∃ m, i = 2 * m := ⟨i / 2, by omega⟩
      exact H.firVal (H.padded hx _) ht (h.2 m (by omega)).1
    · obtain ⟨m, rfl⟩ : ∃ m, i = 2 * m + 1 := ⟨i / 2, by omega⟩
      rw [(h.2 m (by omega)).2]
      exact H.padded hx _ _
  | firDown vec t =>
    have ht := H.seq (show ∀ x ∈ t, D x from hs)
    obtain ⟨v, h1, h2⟩ := h.2 i hi
    rw [h2]
    exact H.add (H.firVal (H.padded (fun i => hx _) _) ht h1) (H.mul H.half (H.padded (fun i => hx _) _ _))
  | iirUp sse c =>
    have hc := H.seq (show ∀ x ∈ c, D x from hs)
    have hl := h.1
    rcases Nat.mod_two_eq_zero_or_one i with h2 | h2
    · obtain ⟨m, rfl⟩ : ∃ m, i = 2 * m := ⟨i / 2, by omega⟩
      rw [(h.2 m (by omega)).1]
      exact H.branch hc hx _ _ _
    · obtain ⟨m, rfl⟩ : ∃ m, i = 2 * m + 1 := ⟨i / 2, by omega⟩
      rw [(h.2 m (by omega)).2]
      exact H.iirBranch1 hc hx _ _ _
  | iirDown sse c =>
    have hc := H.seq (show ∀ x ∈ c, D x from hs)
    rw [h.2 i hi]
    have h1 := H.iirBranch1 hc (x := evens (Panda.seq xs)) (fun i => hx _) sse c.length i
    have h0 : D (branchOut c.length (Panda.seq c) 0 (odds (Panda.seq xs)) i) :=
      H.branch hc (x := odds (Panda.seq xs)) (fun i => hx _) 0 _ i
    split
    · exact H.mul (H.add h1 h0) H.half
    · exact H.mul H.half (H.add h0 h1)

theorem CascadeRel.closed (H : Closed D) {ss : List (Stage F)} (hs : ∀ s ∈ ss, s.In D) {xs ys : List F}
    (hx : ∀ x ∈ xs, D x) (h : CascadeRel ss xs ys) : ∀ y ∈ ys, D y := by
  induction ss generalizing xs with
  | nil => cases h; exact hx
  | cons s ss ih =>
    obtain ⟨zs, h1, h2⟩ := h
    exact ih (fun s hs' => hs s (by simp [hs'])) (h1.closed H (hs s (by simp)) hx) h2

theorem stages_in (H : Closed D) (cfg : Config) : ∀ s ∈ cfg.stages (F := F), s.In D := by
  intro s hs
  have : ∃ k, s ∈ cfg.stage (F := F) k := by
    unfold Config.stages at hs
    split at hs <;> simp only [List.mem_flatten, List.mem_map, List.mem_filter] at hs <;>
      obtain ⟨l, ⟨k, -, rfl⟩, hs⟩ := hs <;> exact ⟨k, hs⟩
  obtain ⟨k, hk⟩ := this
  unfold Config.stage at hk
  split at hk <;> simp only [List.mem_map] at hk <;> obtain ⟨t, -, rfl⟩ := hk <;>
    intro x hx <;> simp only [List.mem_map] at hx <;> obtain ⟨d, -, rfl⟩ := hx <;> exact H.ofDouble _

end closed

/-- Two samples at once. -/
structure Two (F : Type) where
  a : F
  b : F

section two
variable {F : Type} [Zero F] [One F] [Add F] [Sub F] [Mul F] [Sample F]

instance : Zero (Two F) := ⟨⟨0, 0⟩⟩
instance : One (Two F) := ⟨⟨1, 1⟩⟩
instance : Add (Two F) := ⟨fun x y => ⟨x.a + y.a, x.b + y.b⟩⟩
instance : Sub (Two F) := ⟨fun x y => ⟨x.a - y.a, x.b - y.b⟩⟩
instance : Mul (Two F) := ⟨fun x y => ⟨x.a * y.a, x.b * y.b⟩⟩
instance : Sample (Two F) := ⟨⟨Sample.half, Sample.half⟩, fun q => ⟨Sample.ofDouble q, Sample.ofDouble q⟩⟩

theorem compat_a : Compat (fun (p : Two F) (x : F) => p.a = x) where
  zero := rfl
  one := rfl
  add := by rintro _ _ _ _ rfl rfl; rfl
  sub := by rintro _ _ _ _ rfl rfl; rfl
  mul := by rintro _ _ _ _ rfl rfl; rfl
  half := rfl
  ofDouble := fun _ => rfl

theorem compat_b : Compat (fun (p : Two F) (x : F) => p.b = x) where
  zero := rfl
  one := rfl
  add := by rintro _ _ _ _ rfl rfl; rfl
  sub := by rintro _ _ _ _ rfl rfl; rfl
  mul := by rintro _ _ _ _ rfl rfl; rfl
  half := rfl
  ofDouble := fun _ => rfl

theorem closed_diag : Closed (fun p : Two F => p.a = p.b) where
  zero := rfl
  one := rfl
  add := by intro x y h1 h2; show x.a + y.a = x.b + y.b; rw [h1, h2]
  sub := by intro x y h1 h2; show x.a - y.a = x.b - y.b; rw [h1, h2]
  mul := by intro x y h1 h2; show x.a * y.a = x.b * y.b; rw [h1, h2]
  half := rfl
  ofDouble := fun _ => rfl

/-- A buffer of pairs. -/
def Buf.twin (b c : Buf F) : Buf (Two F) := { addr := b.addr, len := b.len, get := fun i => ⟨b.get i, c.get i⟩ }

/-- A call with pairs of samples. -/
def Call.twin (c d : Call F) : Call (Two F) :=
  { st := { block16 := c.st.block16, tmpAddr := c.st.tmpAddr, tmp2Addr := c.st.tmp2Addr,
            junk := fun i => ⟨c.st.junk i, d.st.junk i⟩ },
    input := c.input.twin d.input, n := c.n, output := c.output.twin d.output }

/-- Operations with pairs of samples. -/
def twins : List (Op F) → List (Op F) → List (Op (Two F))
  | .process c :: l, .process d :: m => .process (c.twin d) :: twins l m
  | .reset :: l, .reset :: m => .reset :: twins l m
  | _, _ => []

theorem twins_a {l m : List (Op F)} (h : SameOps l m) : ListRel (OpRel fun (p : Two F) (x : F) => p.a = x) (twins l m) l := by
  induction l generalizing m with
  | nil =>
    cases m with
    | nil => exact .nil
    | cons _ _ => exact h.elim
  | cons o l ih =>
    cases m with
    | nil => cases o <;> exact h.elim
    | cons o' m =>
      cases o <;> cases o' <;> first | exact h.elim | skip
      · exact .cons ⟨⟨rfl, rfl, rfl, fun _ => rfl⟩, ⟨rfl, rfl, fun _ _ => rfl⟩, rfl, ⟨rfl, rfl, fun _ _ => rfl⟩⟩ (ih h.2)
      · exact .cons trivial (ih h)

theorem twins_b {l m : List (Op F)} (h : SameOps l m) : ListRel (OpRel fun (p : Two F) (x : F) => p.b = x) (twins l m) m := by
  induction l generalizing m with
  | nil =>
    cases m with
    | nil => exact .nil
    | cons _ _ => exact h.elim
  | cons o l ih =>
    cases m with
    | nil => cases o <;> exact h.elim
    | cons o' m =>
      cases o <;> cases o' <;> first | exact h.elim | skip
      · rename_i c d
        obtain ⟨h1, h2⟩ := h
        exact .cons ⟨⟨h1.block16, h1.tmpAddr, h1.tmp2Addr, fun _ => rfl⟩, ⟨h1.inAddr, h1.inLen, fun _ _ => rfl⟩, h1.n,
          ⟨h1.outAddr, h1.outLen, fun _ _ => rfl⟩⟩ (ih h2)
      · exact .cons trivial (ih h)

theorem twins_ok {cfg : Config} {l m : List (Op F)} (hl : ∀ op ∈ l, cfg.OpOk op) : ∀ op ∈ twins l m, cfg.OpOk op := by
  induction l generalizing m with
  | nil =>
    intro op h
    cases m <;> simp [twins] at h
  | cons o l ih =>
    have hl' := ih (m := m.tail) fun op h => hl op (by simp [h])
    have ho := hl o (by simp)
    cases m with
    | nil =>
      intro op h
      cases o <;> simp [twins] at h
    | cons o' m =>
      intro op h
      cases o <;> cases o' <;> simp only [twins, List.mem_cons, List.not_mem_nil] at h
      · rename_i c d
        rcases h with rfl | h
        · have ho : cfg.CallOk c := ho
          exact ⟨ho.uint, ho.input, ho.output, ho.mul, ho.large, ho.nonempty, ho.behind⟩
        · exact hl' _ h
      · rcases h with rfl | h
        · trivial
        · exact hl' _ h

theorem twins_fed {l m : List (Op F)} (h : SameOps l m) : ∀ p ∈ fed (twins l m), p.a = p.b := by
  unfold fed
  suffices ∀ acc : List (Two F), (∀ p ∈ acc, p.a = p.b) → ∀ p ∈ (twins l m).foldl fedStep acc, p.a = p.b from this [] (by simp)
  induction l generalizing m with
  | nil => intro acc ha; cases m <;> simpa [twins] using ha
  | cons o l ih =>
    intro acc ha
    cases m with
    | nil => cases o <;> simpa [twins] using ha
    | cons o' m =>
      cases o <;> cases o' <;> first | exact h.elim | skip
      · refine ih h.2 _ ?_
        intro p hp
        rcases List.mem_append.1 hp with hp | hp
        · exact ha p hp
        · obtain ⟨i, hi, rfl⟩ := List.mem_map.1 hp
          exact (h.1.samples i (List.mem_range.1 hi)).symm
      · exact ih h [] (by simp)

end two

section rel
variable {A B : Type} [Zero A] [One A] [Add A] [Sub A] [Mul A] [Sample A] [Zero B] [One B] [Add B] [Sub B] [Mul B] [Sample B]
variable {ρ : A → B → Prop}

theorem ListRel.append {α β : Type} {R : α → β → Prop} {a c : List α} {b d : List β} (h : ListRel R a b) (h' : ListRel R c d) :
    ListRel R (a ++ c) (b ++ d) := by
  induction h with
  | nil => exact h'
  | cons h1 _ ih => exact .cons h1 ih

theorem ListRel.map_range {α β : Type} {R : α → β → Prop} {f : Nat → α} {g : Nat → β} {l : List Nat} (h : ∀ i ∈ l, R (f i) (g i)) :
    ListRel R (l.map f) (l.map g) := by
  induction l with
  | nil => exact .nil
  | cons a l ih => exact .cons (h a (by simp)) (ih fun i hi => h i (by simp [hi]))

theorem produced_rel {cfg : Config} {l : List (Op A)} {m : List (Op B)} {os : List (Option (Buf A))} {os' : List (Option (Buf B))}
    (hl : ListRel (OpRel ρ) l m) (ho : ListRel (OutRel ρ) os os') (hf : cfg.FramedOps l os) (hok : ∀ op ∈ l, cfg.OpOk op) :
    ListRel ρ (cfg.produced l os) (cfg.produced m os') := by
  unfold Config.produced
  suffices ∀ (a : List A) (b : List B), ListRel ρ a b → ListRel ρ ((l.zip os).foldl cfg.producedStep a) ((m.zip os').foldl cfg.producedStep b) from this _ _ .nil
  induction hl generalizing os os' with
  | nil => intro a b h; exact h
  | @cons x y l m hxy _ ih =>
    intro a b h
    cases ho with
    | nil => exact h
    | @cons o o' os os' hoo hos =>
      cases x <;> cases y <;> first | exact hxy.elim | skip
      · cases o <;> cases o' <;> first | exact hoo.elim | exact hf.elim | skip
        rename_i c d o o'
        refine ih hos hf.2 (fun op hop => hok op (by simp [hop])) _ _ (h.append ?_)
        have hcd : CallRel ρ c d := hxy
        have hoo : BufRel ρ o o' := hoo
        have hc : cfg.CallOk c := hok (.process c) (by simp)
        rw [hcd.n]
        refine ListRel.map_range fun i hi => hoo.get i ?_
        have := List.mem_range.1 hi
        have := hc.output
        rw [hf.1.1]
        omega
      · cases o <;> cases o' <;> first | exact hoo.elim | exact hf.elim | skip
        exact ih hos hf (fun op hop => hok op (by simp [hop])) _ _ .nil

end rel

section main
variable {F : Type} [Zero F] [One F] [Add F] [Sub F] [Mul F] [Sample F]

theorem ListRel.eq_map {α β : Type} {f : α → β} {l : List α} {m : List β} (h : ListRel (fun p x => f p = x) l m) :
    m = l.map f := by
  induction h with
  | nil => rfl
  | cons h _ ih => rw [ih, ← h]; rfl

theorem Config.session_same {cfg : Config} (hv : cfg.Valid) {l m : List (Op F)} (hok : ∀ op ∈ l, cfg.OpOk op) (h : SameOps l m) :
    ∃ r os r' os', cfg.session l = .ok (r, os) ∧ cfg.session m = .ok (r', os') ∧ cfg.produced l os = cfg.produced m os' := by
  have hok2 := twins_ok (m := m) hok
  obtain ⟨r2, os2, h2, hf, hrel⟩ := Config.session_spec hv hok2
  have ha := Config.session_rel compat_a cfg (twins_a h)
  have hb := Config.session_rel compat_b cfg (twins_b h)
  rw [h2] at ha hb
  cases e1 : cfg.session l with
  | error e => rw [e1] at ha; exact ha.elim
  | ok q =>
    cases e2 : cfg.session m with
    | error e => rw [e2] at hb; exact hb.elim
    | ok q' =>
      rw [e1] at ha
      rw [e2] at hb
      refine ⟨q.1, q.2, q'.1, q'.2, rfl, rfl, ?_⟩
      have pa := (produced_rel (twins_a h) ha.2 hf hok2).eq_map
      have pb := (produced_rel (twins_b h) hb.2 hf hok2).eq_map
      rw [pa, pb]
      apply List.map_congr_left
      exact hrel.closed closed_diag (stages_in closed_diag cfg) (twins_fed h)

end main

end Panda
