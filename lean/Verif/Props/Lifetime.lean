import Verif.Props.Reset
import Verif.Props.Safety
import Verif.Proofs.Lifetime

/-!
# The life of resampler objects: no leaks, no double frees, moves, exceptions (C89)
-/

set_option linter.unusedSectionVars false

namespace Panda

open Examples

variable {F : Type} [Zero F] [One F] [Add F] [Sub F] [Mul F] [Sample F]

/-! ## The invariant -/

/-- Blocks of an object. -/
def varBlocks : Option (Var F) → List Block
  | none => []
  | some v => v.own.blocks

/-- Blocks of the objects `0 … N - 1`. -/
def allBlocks (vars : Nat → Option (Var F)) (N : Nat) : List Block := (List.range N).flatMap fun k => varBlocks (vars k)

theorem allBlocks_set {vars : Nat → Option (Var F)} {N k : Nat} (hk : k < N) :
    ∃ R, (allBlocks vars N).Perm (varBlocks (vars k) ++ R) ∧ ∀ v, (allBlocks (setVar vars k v) N).Perm (varBlocks v ++ R) := by
  have hp := List.perm_cons_erase (List.mem_range.2 hk)
  refine ⟨((List.range N).erase k).flatMap fun k => varBlocks (vars k), hp.flatMap_right _, fun v => ?_⟩
  refine (hp.flatMap_right _).trans ?_
  rw [List.flatMap_cons]
  have h1 : setVar vars k v k = v := if_pos rfl
  rw [h1]
  refine List.Perm.append_left _ ?_
  have h2 : ∀ j ∈ (List.range N).erase k, varBlocks (setVar vars k v j) = varBlocks (vars j) := by
    intro j hj
    have : j ≠ k := by
      rintro rfl
      exact (List.nodup_range (n := N)).not_mem_erase hj
    rw [show setVar vars k v j = vars j from if_neg this]
  rw [List.flatMap_congr h2]

theorem allBlocks_le {vars : Nat → Option (Var F)} {N M : Nat} (h : N ≤ M) (hn : ∀ k ≥ N, vars k = none) :
    allBlocks vars M = allBlocks vars N := by
  obtain ⟨d, rfl⟩ := Nat.exists_eq_add_of_le h
  induction d with
  | zero => rfl
  | succ d ih =>
    rw [← ih (Nat.le_add_right _ _), ← Nat.add_assoc]
    unfold allBlocks
    rw [List.range_succ, List.flatMap_append]
    simp [hn (N + d) (Nat.le_add_right _ _), varBlocks]

/-- Object and life agree. -/
def Agree (bld : Build) : Option (Var F) → Life F → Prop
  | v, .dead => v = none
  | v, .moved => ∃ a, v = some a ∧ a.own.blocks = []
  | v, .holds cfg ops os => ∃ a, v = some a ∧ a.own.blocks.length = cfg.blocks ∧ cfg.Valid ∧ cfg.bld = bld ∧
      (∀ op ∈ ops, cfg.OpOk op) ∧ cfg.session ops = .ok (a.r, os)

structure Inv (bld : Build) (w : World F) (l : Nat → Life F) : Prop where
  wf : w.heap.Wf
  perm : ∃ N, (∀ k ≥ N, w.vars k = none) ∧ w.heap.live.Perm (allBlocks w.vars N)
  agree : ∀ k, Agree bld (w.vars k) (l k)

theorem Inv.start (bld : Build) : Inv bld (World.start : World F) fun _ => .dead :=
  ⟨⟨List.nodup_nil, by intro b hb; cases hb⟩, ⟨0, fun _ _ => rfl, List.Perm.refl _⟩, fun _ => rfl⟩

theorem Inv.big {bld : Build} {w : World F} {l : Nat → Life F} (h : Inv bld w l) (k j : Nat) :
    ∃ N, k < N ∧ j < N ∧ (∀ i ≥ N, w.vars i = none) ∧ w.heap.live.Perm (allBlocks w.vars N) := by
  obtain ⟨N, hn, hp⟩ := h.perm
  refine ⟨max N (max (k + 1) (j + 1)), by omega, by omega, fun i hi => hn i (by omega), ?_⟩
  rw [allBlocks_le (Nat.le_max_left _ _) hn]
  exact hp

theorem Inv.get {bld : Build} {w : World F} {l : Nat → Life F} (h : Inv bld w l) {k : Nat} (hk : l k ≠ .dead) :
    ∃ a, w.vars k = some a ∧ w.get k = .ok a := by
  have := h.agree k
  have key : ∃ a, w.vars k = some a := by
    cases e : l k with
    | dead => exact (hk e).elim
    | moved =>
      rw [e] at this
      obtain ⟨a, ha, -⟩ := this
      exact ⟨a, ha⟩
    | holds cfg ops os =>
      rw [e] at this
      obtain ⟨a, ha, -⟩ := this
      exact ⟨a, ha⟩
  obtain ⟨a, ha⟩ := key
  exact ⟨a, ha, by unfold World.get; rw [ha]; rfl⟩

theorem setVar_self (vars : Nat → Option (Var F)) (k : Nat) (v) : setVar vars k v k = v := if_pos rfl

theorem setVar_ne (vars : Nat → Option (Var F)) {k j : Nat} (h : j ≠ k) (v) : setVar vars k v j = vars j := if_neg h

theorem agree_set {bld : Build} {vars : Nat → Option (Var F)} {l : Nat → Life F} {k : Nat} {v : Option (Var F)} {x : Life F}
    (h : ∀ j, j ≠ k → Agree bld (vars j) (l j)) (hx : Agree bld v x) (j : Nat) :
    Agree bld (setVar vars k v j) (setLife l k x j) := by
  by_cases hj : j = k
  · subst hj
    rw [setVar_self, show setLife l j x j = x from if_pos rfl]
    exact hx
  · rw [setVar_ne _ hj, show setLife l k x j = l j from if_neg hj]
    exact h j hj

theorem agree_moved (bld : Build) (b : Var F) : Agree bld (some b.movedFrom) .moved := ⟨_, rfl, rfl⟩

/-- The blocks after a move. -/
theorem allBlocks_move {vars : Nat → Option (Var F)} {N k j : Nat} (hk : k < N) (hj : j < N) (hkj : k ≠ j) {b : Var F}
    (hb : vars j = some b) {L : List Block} (hL : ∀ c, L.count c + (varBlocks (vars k)).count c = (allBlocks vars N).count c) :
    L.Perm (allBlocks (setVar (setVar vars j (some b.movedFrom)) k (some b)) N) := by
  obtain ⟨R, h1, h2⟩ := allBlocks_set (vars := vars) hj
  obtain ⟨R', h3, h4⟩ := allBlocks_set (vars := setVar vars j (some b.movedFrom)) hk
  rw [setVar_ne _ hkj] at h3
  rw [hb] at h1
  have h2' := h2 (some b.movedFrom)
  have h4' := h4 (some b)
  rw [List.perm_iff_count] at *
  intro c
  have e0 := hL c
  have e1 := h1 c
  have e2 := h2' c
  have e3 := h3 c
  have e4 := h4' c
  have e5 : (varBlocks (some b.movedFrom)).count c = 0 := rfl
  rw [List.count_append] at e1 e2 e3 e4
  omega

/-- After an allowed statement that is carried out or throws, objects and lives agree again; and nothing is undefined. -/
theorem Inv.step {bld : Build} {af : AllocFail} (hm : ∀ i, af.malloc i = false) {w : World F} {l : Nat → Life F} (h : Inv bld w l)
    {s : Stmt F} (hs : Allowed bld l s) :
    ∃ w' o, w.step bld af s = .ok (w', o) ∧ Inv bld w' (nextLife l s o) ∧ ((∃ k cfg, s = .construct k cfg) ∨ ∃ b, o = .done b) := by
  cases s with
  | construct k cfg =>
    obtain ⟨hd, hv, hb⟩ := hs
    have hk : w.vars k = none := by
      have := h.agree k
      rw [hd] at this
      exact this
    have ht := tri_ownNew cfg af hm w.heap w.heap.live h.wf (List.Perm.refl _)
    cases e : Own.new cfg af w.heap with
    | ub u =>
      rw [e] at ht
      exact ht.elim
    | thrown h' =>
      rw [e] at ht
      obtain ⟨e0, he, hw, hp⟩ := ht
      cases he
      refine ⟨{ w with heap := h' }, .threw, by simp only [World.step, e]; rfl, ⟨hw, ?_, h.agree⟩, .inl ⟨_, _, rfl⟩⟩
      obtain ⟨N, hn, hp'⟩ := h.perm
      exact ⟨N, hn, hp.trans hp'⟩
    | val own h' =>
      rw [e] at ht
      obtain ⟨r, hr, -⟩ := C32_constructible (F := F) cfg hv
      refine ⟨{ vars := setVar w.vars k (some { r := r, own := own }), heap := h' }, .done none,
        by simp only [World.step, e, hr, ok_bind]; rfl, ⟨ht.1, ?_, ?_⟩, .inl ⟨_, _, rfl⟩⟩
      · obtain ⟨N, hkN, -, hn, hp⟩ := h.big k k
        obtain ⟨R, h1, h2⟩ := allBlocks_set (vars := w.vars) hkN
        rw [hk] at h1
        refine ⟨N, fun i hi => ?_, ?_⟩
        · dsimp only
          rw [setVar_ne _ (by omega)]
          exact hn i hi
        · refine ht.2.trans (List.Perm.trans ?_ (h2 _).symm)
          exact (hp.trans h1).append_left _
      · have hses : cfg.session ([] : List (Op F)) = .ok (r, []) := by
          simp only [Config.session, hr, ok_bind]
          rfl
        have hag : Agree bld (some ({ r := r, own := own } : Var F)) (.holds cfg [] []) :=
          ⟨_, rfl, ret_ownNew cfg hv af hm _ _ _ e, hv, hb, fun op hop => absurd hop List.not_mem_nil, hses⟩
        exact agree_set (fun j _ => h.agree j) hag
  | moveInit k j =>
    obtain ⟨hd, hj⟩ := hs
    have hk : w.vars k = none := by
      have := h.agree k
      rw [hd] at this
      exact this
    have hkj : k ≠ j := by
      rintro rfl
      exact hj hd
    obtain ⟨b, hb, hg⟩ := h.get hj
    refine ⟨{ w with vars := setVar (setVar w.vars j (some b.movedFrom)) k (some b) }, .done none,
      by simp only [World.step, hg, ok_bind]; rfl, ⟨h.wf, ?_, ?_⟩, .inr ⟨_, rfl⟩⟩
    · obtain ⟨N, hkN, hjN, hn, hp⟩ := h.big k j
      refine ⟨N, fun i hi => ?_, allBlocks_move hkN hjN hkj hb fun c => ?_⟩
      · dsimp only
        rw [setVar_ne _ (by omega), setVar_ne _ (by omega)]
        exact hn i hi
      · dsimp only
        rw [hk]
        have := (List.perm_iff_count.1 hp) c
        have : (varBlocks (none : Option (Var F))).count c = 0 := rfl
        omega
    · refine agree_set (fun i _ => agree_set (fun i _ => h.agree i) (agree_moved bld b) i) ?_
      have := h.agree j
      rw [hb] at this
      exact this
  | moveAssign k j =>
    obtain ⟨hk, hj⟩ := hs
    obtain ⟨a, ha, hga⟩ := h.get hk
    obtain ⟨b, hb, hg⟩ := h.get hj
    by_cases hkj : k = j
    · subst hkj
      refine ⟨w, .done none, by simp only [World.step, hg, ok_bind, if_true]; rfl, ?_, .inr ⟨_, rfl⟩⟩
      simp only [nextLife, if_true]
      exact h
    obtain ⟨N, hkN, hjN, hn, hp⟩ := h.big k j
    obtain ⟨R, h1, h2⟩ := allBlocks_set (vars := w.vars) hkN
    rw [ha] at h1
    have ht := tri_ownRelease a.own af hm w.heap R h.wf (hp.trans h1)
    cases e : (do ptrDelete a.own.x2; ptrDelete a.own.x4; ptrDelete a.own.x8 : HM Unit) af w.heap with
    | ub u =>
      rw [e] at ht
      exact ht.elim
    | thrown h' =>
      rw [e] at ht
      obtain ⟨_, he, _⟩ := ht
      cases he
    | val _ h' =>
      rw [e] at ht
      refine ⟨{ vars := setVar (setVar w.vars j (some b.movedFrom)) k (some b), heap := h' }, .done none,
        by simp only [World.step, hga, hg, ok_bind, if_neg hkj, e]; rfl, ⟨ht.1, ?_, ?_⟩, .inr ⟨_, rfl⟩⟩
      · refine ⟨N, fun i hi => ?_, allBlocks_move hkN hjN hkj hb fun c => ?_⟩
        · dsimp only
          rw [setVar_ne _ (by omega), setVar_ne _ (by omega)]
          exact hn i hi
        · dsimp only
          rw [ha]
          have e1 := (List.perm_iff_count.1 h1) c
          have e2 := (List.perm_iff_count.1 ht.2) c
          rw [List.count_append] at e1
          rw [List.nil_append] at e2
          omega
      · simp only [nextLife, if_neg hkj]
        refine agree_set (fun i _ => agree_set (fun i _ => h.agree i) (agree_moved bld b) i) ?_
        have := h.agree j
        rw [hb] at this
        exact this
  | destroy k =>
    obtain ⟨a, ha, hga⟩ := h.get hs
    obtain ⟨N, hkN, -, hn, hp⟩ := h.big k k
    obtain ⟨R, h1, h2⟩ := allBlocks_set (vars := w.vars) hkN
    rw [ha] at h1
    have ht := tri_ownDelete a.own af hm w.heap R h.wf (hp.trans h1)
    cases e : a.own.delete af w.heap with
    | ub u =>
      rw [e] at ht
      exact ht.elim
    | thrown h' =>
      rw [e] at ht
      obtain ⟨_, he, _⟩ := ht
      cases he
    | val _ h' =>
      rw [e] at ht
      refine ⟨{ vars := setVar w.vars k none, heap := h' }, .done none,
        by simp only [World.step, hga, ok_bind, e]; rfl, ⟨ht.1, ⟨N, fun i hi => ?_, ht.2.trans (h2 none).symm⟩, ?_⟩, .inr ⟨_, rfl⟩⟩
      · dsimp only
        rw [setVar_ne _ (by omega)]
        exact hn i hi
      · exact agree_set (fun j _ => h.agree j) rfl
  | use k op =>
    obtain ⟨cfg, ops, os, hl, hop⟩ := hs
    have hag := h.agree k
    rw [hl] at hag
    obtain ⟨a, ha, hbl, hv, hbd, hops, hses⟩ := hag
    have hg : w.get k = .ok a := by unfold World.get; rw [ha]; rfl
    have hops' : ∀ o ∈ ops ++ [op], cfg.OpOk o := by
      intro o ho
      rcases List.mem_append.1 ho with ho | ho
      · exact hops o ho
      · rw [List.mem_singleton.1 ho]
        exact hop
    obtain ⟨r0, hr0, -, -, -, -, -, hrun⟩ := C32_constructible (F := F) cfg hv
    obtain ⟨q, hq⟩ := hrun _ hops'
    have hs0 : r0.runOps cfg.bld ops = .ok (a.r, os) := by
      simpa only [Config.session, hr0, ok_bind] using hses
    have hq' := hq
    rw [Resampler.runOps_append, hs0, ok_bind] at hq'
    obtain ⟨⟨r', os'⟩, h1, h2⟩ := bind_ok_iff.1 hq'
    have hqq : q = (r', os ++ os') := by cases h2; rfl
    have hfull : cfg.session (ops ++ [op]) = .ok (r', os ++ os') := by
      simp only [Config.session, hr0, ok_bind]
      rw [hq, hqq]
    have fin : ∀ o, os' = [o] → w.step bld af (.use k op) = .ok ({ w with vars := setVar w.vars k (some { a with r := r' }) }, .done o) →
        ∃ w' o, w.step bld af (.use k op) = .ok (w', o) ∧ Inv bld w' (nextLife l (.use k op) o) ∧
          ((∃ k' cfg, Stmt.use k op = .construct k' cfg) ∨ ∃ b, o = .done b) := by
      intro o ho hst
      refine ⟨_, _, hst, ⟨h.wf, ?_, ?_⟩, .inr ⟨_, rfl⟩⟩
      · obtain ⟨N, hkN, -, hn, hp⟩ := h.big k k
        obtain ⟨R, h1, h2⟩ := allBlocks_set (vars := w.vars) hkN
        rw [ha] at h1
        refine ⟨N, fun i hi => ?_, hp.trans (h1.trans (h2 (some { a with r := r' })).symm)⟩
        dsimp only
        rw [setVar_ne _ (by omega)]
        exact hn i hi
      · simp only [nextLife, hl]
        refine agree_set (fun j _ => h.agree j) ⟨_, rfl, hbl, hv, hbd, hops', ?_⟩
        rw [hfull, ho]
    cases op with
    | process c =>
      unfold Resampler.runOps at h1
      obtain ⟨⟨r1, o⟩, hpb, h1⟩ := bind_ok_iff.1 h1
      cases h1
      refine fin (some o) rfl ?_
      rw [hbd] at hpb
      simp only [World.step, hg, ok_bind, hpb]
      rfl
    | reset =>
      unfold Resampler.runOps at h1
      obtain ⟨r1, hpb, h1⟩ := bind_ok_iff.1 h1
      cases h1
      refine fin none rfl ?_
      simp only [World.step, hg, ok_bind, hpb]
      rfl

theorem Inv.lives {bld : Build} {af : AllocFail} (hm : ∀ i, af.malloc i = false) {w w' : World F} {l l' : Nat → Life F}
    (h : Inv bld w l) {prog : List (Stmt F)} {outs : List (Outcome F)} (hr : w.run bld af prog = .ok (w', outs))
    (hl : Lives bld l prog outs l') : Inv bld w' l' := by
  induction hl generalizing w with
  | nil l =>
    cases hr
    exact h
  | cons ha _ ih =>
    unfold World.run at hr
    obtain ⟨⟨w1, o1⟩, h1, hr⟩ := bind_ok_iff.1 hr
    obtain ⟨⟨w2, os2⟩, h2, hr⟩ := bind_ok_iff.1 hr
    cases hr
    obtain ⟨w3, o3, h3, hi, -⟩ := h.step hm ha
    rw [h1] at h3
    cases h3
    exact ih hi h2

theorem Life.blocks_le {bld : Build} {vars : Nat → Option (Var F)} {l : Nat → Life F} (h : ∀ k, Agree bld (vars k) (l k)) (k : Nat) :
    (varBlocks (vars k)).length = (l k).blocks := by
  have := h k
  cases e : l k with
  | dead =>
    rw [e] at this
    rw [show vars k = none from this]
    rfl
  | moved =>
    rw [e] at this
    obtain ⟨a, ha, hb⟩ := this
    rw [ha]
    exact congrArg List.length hb
  | holds cfg ops os =>
    rw [e] at this
    obtain ⟨a, ha, hb, -⟩ := this
    rw [ha]
    exact hb

/-! ## C89 -/

/-- **C89** (safety) A program that constructs, moves, assigns, uses and destroys resamplers according to the rules
(`Allowed`), `operator new` failing wherever it likes: no statement is undefined, only constructors throw. -/
theorem C89_safe (bld : Build) (af : AllocFail) (hm : ∀ i, af.malloc i = false) (prog : List (Stmt F)) (outs : List (Outcome F))
    (w : World F) (l : Nat → Life F) (hr : World.start.run bld af prog = .ok (w, outs)) (hl : Lives bld (fun _ => .dead) prog outs l)
    (s : Stmt F) (hs : Allowed bld l s) :
    ∃ w' o, w.step bld af s = .ok (w', o) ∧ ((∃ k cfg, s = .construct k cfg) ∨ ∃ b, o = .done b) := by
  obtain ⟨w', o, h1, -, h2⟩ := ((Inv.start bld).lives hm hr hl).step hm hs
  exact ⟨w', o, h1, h2⟩

/-- **C89** (memory) At every point of such a program, the number of allocated blocks is the sum of what the resamplers
that are held at this point need (`Life.blocks`): nothing is leaked, nothing is released early; the blocks are distinct. -/
theorem C89_memory (bld : Build) (af : AllocFail) (hm : ∀ i, af.malloc i = false) (prog : List (Stmt F)) (outs : List (Outcome F))
    (w : World F) (l : Nat → Life F) (hr : World.start.run bld af prog = .ok (w, outs)) (hl : Lives bld (fun _ => .dead) prog outs l) :
    (w.heap.live.map Prod.fst).Nodup ∧
    ∃ N, (∀ k ≥ N, l k = .dead) ∧ w.heap.live.length = ((List.range N).map fun k => (l k).blocks).sum := by
  have hi := (Inv.start bld).lives hm hr hl
  refine ⟨hi.wf.nodup, ?_⟩
  obtain ⟨N, hn, hp⟩ := hi.perm
  refine ⟨N, fun k hk => ?_, ?_⟩
  · by_contra hd
    obtain ⟨a, ha, -⟩ := hi.get hd
    rw [hn k hk] at ha
    cases ha
  · rw [hp.length_eq, allBlocks, List.length_flatMap]
    congr 1
    exact List.map_congr_left fun k _ => Life.blocks_le hi.agree k

/-- **C89** (no leaks) When all objects have been destroyed, all memory has been released, whatever was moved and whichever
allocations failed. -/
theorem C89_no_leak (bld : Build) (af : AllocFail) (hm : ∀ i, af.malloc i = false) (prog : List (Stmt F)) (outs : List (Outcome F))
    (w : World F) (l : Nat → Life F) (hr : World.start.run bld af prog = .ok (w, outs)) (hl : Lives bld (fun _ => .dead) prog outs l)
    (hd : ∀ k, l k = .dead) : w.heap.live = [] := by
  obtain ⟨-, N, -, h⟩ := C89_memory bld af hm prog outs w l hr hl
  rw [← List.length_eq_zero_iff, h]
  simp [hd, Life.blocks]

/-- **C89** (moves) A resampler does not notice that it is moved: the results of its operations are those of a resampler that
was constructed in the same way, never moved, and carried out the same operations. -/
theorem C89_moves (bld : Build) (af : AllocFail) (hm : ∀ i, af.malloc i = false) (prog : List (Stmt F)) (outs : List (Outcome F))
    (w : World F) (l : Nat → Life F) (hr : World.start.run bld af prog = .ok (w, outs)) (hl : Lives bld (fun _ => .dead) prog outs l)
    (k : Nat) (cfg : Config) (ops : List (Op F)) (os : List (Option (Buf F))) (hk : l k = .holds cfg ops os) :
    ∃ v, w.vars k = some v ∧ cfg.session ops = .ok (v.r, os) := by
  have := ((Inv.start bld).lives hm hr hl).agree k
  rw [hk] at this
  obtain ⟨a, ha, -, -, -, -, h⟩ := this
  exact ⟨a, ha, h⟩

/-- Nothing fails. -/
def noFail : AllocFail := { opNew := fun _ => false, malloc := fun _ => false }

/-- The sixth allocation fails. -/
def sixthFails : AllocFail := { opNew := fun i => i == 5, malloc := fun _ => false }

/-- UP by 4, FIR: the constructor fails after the first stage was built, a second attempt succeeds; the resampler is moved, both
objects are destroyed. -/
def moveProg : List (Stmt Rat) :=
  [.construct 0 (cfg .up 4 1 true .fir), .construct 0 (cfg .up 4 1 true .fir), .moveInit 1 0, .destroy 0, .destroy 1]

private theorem moveProg_valid : (cfg .up 4 1 true .fir).Valid := ⟨by decide, by decide, by decide⟩

private theorem moveProg_first : Own.new (cfg .up 4 1 true .fir) sixthFails { live := [], next := 0 } = .thrown { live := [], next := 6 } := by
  decide +kernel

private def moveOwn : Own := ⟨some ⟨6, some 7, [some 8, some 10]⟩, some ⟨11, some 12, [some 13, some 15]⟩, none⟩

private def moveHeap : Heap :=
  { live := [(15, .malloc), (13, .malloc), (12, .opNew), (11, .opNew), (10, .malloc), (8, .malloc), (7, .opNew), (6, .opNew)], next := 16 }

private theorem moveProg_second : Own.new (cfg .up 4 1 true .fir) sixthFails { live := [], next := 6 } = .val moveOwn moveHeap := by
  decide +kernel

private theorem moveProg_delete : moveOwn.delete sixthFails moveHeap = .val () { live := [], next := 16 } := by
  decide +kernel

/-- The rules are obeyed, the first constructor throws, in the end no memory is in use. -/
example : ∃ (w : World Rat) (l : Nat → Life Rat),
    World.start.run x86 sixthFails moveProg = .ok (w, [.threw, .done none, .done none, .done none, .done none]) ∧
    Lives x86 (fun _ => .dead) moveProg [.threw, .done none, .done none, .done none, .done none] l ∧
    (∀ k, l k = .dead) ∧ w.heap = { live := [], next := 16 } := by
  obtain ⟨r, hr, -⟩ := C32_constructible (F := Rat) _ moveProg_valid
  have hrun : ∃ w : World Rat, World.start.run x86 sixthFails moveProg = .ok (w, [.threw, .done none, .done none, .done none, .done none]) ∧
      w.heap = { live := [], next := 16 } := by
    have e0 : (⟨none, none, none⟩ : Own).delete sixthFails moveHeap = .val () moveHeap := by decide +kernel
    exact ⟨_, by
      simp only [moveProg, World.run, World.step, World.start, World.get, moveProg_first, moveProg_second, hr, ok_bind, pure_eq_ok, setVar, if_true,
        Var.movedFrom, e0, moveProg_delete, if_false, show ¬ (0 = 1) by decide, show ¬ (1 = 0) by decide]
      rfl, rfl⟩
  have hl : ∃ l : Nat → Life Rat, Lives x86 (fun _ => .dead) moveProg [.threw, .done none, .done none, .done none, .done none] l ∧
      ∀ k, l k = .dead := by
    refine ⟨_, .cons ⟨rfl, moveProg_valid, rfl⟩ (.cons ⟨rfl, moveProg_valid, rfl⟩ (.cons (⟨?_, ?_⟩ : _ ∧ _) (.cons ?_ (.cons ?_ (.nil _))))), ?_⟩
    · simp [nextLife, setLife]
    · simp [nextLife, setLife]
    · simp [Allowed, nextLife, setLife]
    · simp [Allowed, nextLife, setLife]
    · intro k
      simp only [nextLife, setLife]
      by_cases h1 : k = 1 <;> by_cases h0 : k = 0 <;> simp [h0, h1]
  obtain ⟨w, h1, h2⟩ := hrun
  obtain ⟨l, h3, h4⟩ := hl
  exact ⟨w, l, h1, h3, h4, h2⟩

/-! ## Outside of the rules -/

/-- **C89** (why the rule for uses is needed) Processing samples with, or resetting, a resampler for ratio 2, 4 or 8 after it was moved
from calls through a null pointer. -/
theorem C89_false_use_after_move (bld : Build) (af : AllocFail) (w : World F) (k j : Nat) (hkj : k ≠ j) (b : Var F) (hb : w.vars j = some b)
    (h1 : b.r.ratio = 2 ∨ b.r.ratio = 4 ∨ b.r.ratio = 8) (op : Op F) (hop : ∀ c, op = .process c → 0 < c.n) :
    ∃ w' o, w.step bld af (.moveInit k j) = .ok (w', o) ∧ w'.step bld af (.use j op) = .error .nullDeref := by
  have hg : w.get j = .ok b := by unfold World.get; rw [hb]; rfl
  refine ⟨_, _, by simp only [World.step, hg, ok_bind]; rfl, ?_⟩
  have hg' : World.get { w with vars := setVar (setVar w.vars j (some b.movedFrom)) k (some b) } j = .ok b.movedFrom := by
    unfold World.get
    dsimp only
    rw [setVar_ne _ (Ne.symm hkj), setVar_self]
    rfl
  cases op with
  | process c =>
    have hn := hop c rfl
    obtain ⟨n, hn⟩ : ∃ m, c.n = m + 1 := ⟨c.n - 1, by omega⟩
    have e : b.movedFrom.r.processBlock bld c.st c.input c.n c.output = .error .nullDeref := by
      rw [hn]
      rcases h1 with hr | hr | hr
      · simp [Resampler.processBlock, Var.movedFrom, hr, deref]
      · cases hm : b.r.mode <;> simp [Resampler.processBlock, Var.movedFrom, hr, whileF, Resampler.loopBody, deref, hm]
      · cases hm : b.r.mode <;> simp [Resampler.processBlock, Var.movedFrom, hr, whileF, Resampler.loopBody, deref, hm]
    simp only [World.step, hg', ok_bind, e]
    rfl
  | reset =>
    have e : b.movedFrom.r.reset = .error .nullDeref := by
      have : 2 ≤ b.r.ratio := by omega
      simp [Resampler.reset, Var.movedFrom, resetStage, deref, this]
    simp only [World.step, hg', ok_bind, e]
    rfl

/-- Except for ratio 1, where there are no stages: it still copies. -/
theorem C89_moved_ratio_one (bld : Build) (b : Var F) (h1 : b.r.ratio = 1) (c : Call F) (r : Resampler F) (o : Buf F)
    (h : b.r.processBlock bld c.st c.input c.n c.output = .ok (r, o)) :
    b.movedFrom.r.processBlock bld c.st c.input c.n c.output = .ok (b.movedFrom.r, o) := by
  simp only [Resampler.processBlock, h1, show ¬ (1 = 2) by decide, if_false, if_true, Var.movedFrom] at h ⊢
  obtain ⟨o', h2, h3⟩ := bind_ok_iff.1 h
  cases h3
  rw [h2]
  simp

/-- `operator new` works, `malloc` does not. -/
def mallocFails : AllocFail := { opNew := fun _ => false, malloc := fun _ => true }

/-- **C89** (why `malloc` must not fail) When `malloc` fails, the constructor of a FIR resampler writes through a null pointer; this is not an
exception. -/
theorem C89_false_malloc (bld : Build) (w : World F) (k : Nat) (cfg : Config) (hv : cfg.Valid) (hf : cfg.filter = .fir) (h1 : cfg.ratio ≠ 1) :
    w.step bld mallocFails (.construct k cfg) = .error .oobWrite := by
  have hr : 2 ≤ cfg.ratio := by
    have := hv.ratio
    simp at this
    omega
  obtain ⟨t, ht, h0⟩ : ∃ t, firTable 2 cfg.precision = some t ∧ 0 < t.length := by
    have : ∀ p ∈ [1, 8, 12, 16, 20, 24], ∃ t, firTable 2 p = some t ∧ 0 < t.length := by decide +kernel
    exact this _ hv.precision
  have hnew : ∀ h : Heap, opNew mallocFails h = .val h.next { live := (h.next, .opNew) :: h.live, next := h.next + 1 } := fun h => rfl
  have hvec : ∀ h : Heap, vecNew t.length mallocFails h = .val (some h.next) { live := (h.next, .opNew) :: h.live, next := h.next + 1 } := by
    intro h
    unfold vecNew
    rw [if_neg (by omega)]
    rfl
  have harr : ∀ h : Heap, arrNew (2 * t.length) mallocFails h = .ub .oobWrite := by
    intro h
    have e : cMalloc mallocFails h = .val none { h with next := h.next + 1 } := rfl
    unfold arrNew
    rw [HM.bind_val e, if_pos (by simp; omega)]
    rfl
  have hbu : ∀ {α β : Type} (x : HM α) (f : α → HM β) (h : Heap) (u : UB), x mallocFails h = .ub u → (x >>= f) mallocFails h = .ub u := by
    intro α β x f h u e
    show (match x mallocFails h with
      | .val a h => f a mallocFails h
      | .thrown h => .thrown h
      | .ub u => .ub u : Out β) = _
    rw [e]
  have htu : ∀ {α : Type} (x : HM α) (c : HM Unit) (h : Heap) (u : UB), x mallocFails h = .ub u → HM.onThrow x c mallocFails h = .ub u := by
    intro α x c h u e
    unfold HM.onThrow
    rw [e]
  have hc : ∀ h : Heap, createMem cfg 2 mallocFails h = .ub .oobWrite := by
    intro h
    unfold createMem
    rw [hf, ht]
    cases cfg.mode with
    | up =>
      refine hbu _ _ _ _ ?_
      unfold firUpMem
      rw [HM.bind_val (hnew h)]
      refine htu _ _ _ _ ?_
      rw [HM.bind_val (hvec _)]
      exact htu _ _ _ _ (hbu _ _ _ _ (harr _))
    | down =>
      refine hbu _ _ _ _ ?_
      unfold firDownMem
      rw [HM.bind_val (hnew h)]
      refine htu _ _ _ _ ?_
      rw [HM.bind_val (hvec _)]
      exact htu _ _ _ _ (hbu _ _ _ _ (harr _))
  have e : Own.new cfg mallocFails w.heap = .ub .oobWrite := by
    unfold Own.new
    refine hbu _ _ _ _ (htu _ _ _ _ ?_)
    unfold initStageMem
    rw [if_neg (by simp; omega)]
    exact hbu _ _ _ _ (hc _)
  simp only [World.step, e]

example : (cfg .down 8 20 true .fir).Valid ∧ (cfg .down 8 20 true .fir).filter = .fir ∧ (cfg .down 8 20 true .fir).ratio ≠ 1 :=
  ⟨⟨by decide, by decide, by decide⟩, rfl, by decide⟩

end Panda
