import Verif.Spec.Lifetime
import Mathlib.Data.List.Perm.Basic
import Mathlib.Data.List.Range
import Mathlib.Tactic.Common

/-!
# Reasoning about allocation: a small separation logic

`Tri pre x post exc`: started with the blocks `pre` among others, `x` ends with `post a` in place of `pre`, or throws with
`exc` in place of `pre` (`none`: it does not throw), and nothing is undefined, provided that `malloc` does not fail.
-/

namespace Panda

/-- Block numbers are distinct and below the counter. -/
structure Heap.Wf (h : Heap) : Prop where
  nodup : (h.live.map Prod.fst).Nodup
  lt : ∀ b ∈ h.live, b.1 < h.next

def Tri {α : Type} (pre : List Block) (x : HM α) (post : α → List Block) (exc : Option (List Block)) : Prop :=
  ∀ (af : AllocFail) (_ : ∀ i, af.malloc i = false) (h : Heap) (L : List Block), h.Wf → h.live.Perm (pre ++ L) →
    match x af h with
    | .val a h' => h'.Wf ∧ h'.live.Perm (post a ++ L)
    | .thrown h' => ∃ e, exc = some e ∧ h'.Wf ∧ h'.live.Perm (e ++ L)
    | .ub _ => False

theorem Tri.pure {α : Type} (a : α) (post : α → List Block) (exc) : Tri (post a) (Pure.pure a : HM α) post exc :=
  fun _ _ _ _ hw hp => ⟨hw, hp⟩

theorem Tri.bind {α β : Type} {pre} {x : HM α} {f : α → HM β} {mid post exc} (h1 : Tri pre x mid exc)
    (h2 : ∀ a, Tri (mid a) (f a) post exc) : Tri pre (x >>= f) post exc := by
  intro af hm h L hw hp
  have := h1 af hm h L hw hp
  show match (match x af h with
    | .val a h => f a af h
    | .thrown h => .thrown h
    | .ub u => .ub u : Out β) with
    | .val a h' => h'.Wf ∧ h'.live.Perm (post a ++ L)
    | .thrown h' => ∃ e, exc = some e ∧ h'.Wf ∧ h'.live.Perm (e ++ L)
    | .ub _ => False
  cases e : x af h with
  | val a h' =>
    rw [e] at this
    exact h2 a af hm h' L this.1 this.2
  | thrown h' =>
    rw [e] at this
    exact this
  | ub u =>
    rw [e] at this
    exact this.elim

theorem Tri.onThrow {α : Type} {pre} {x : HM α} {c : HM Unit} {post exc exc'} (h1 : Tri pre x post (some exc'))
    (h2 : Tri exc' c (fun _ => exc) none) : Tri pre (HM.onThrow x c) post (some exc) := by
  intro af hm h L hw hp
  have := h1 af hm h L hw hp
  unfold HM.onThrow
  cases e : x af h with
  | val a h' =>
    rw [e] at this
    exact this
  | ub u =>
    rw [e] at this
    exact this.elim
  | thrown h' =>
    rw [e] at this
    obtain ⟨e0, he, hw', hp'⟩ := this
    cases he
    have := h2 af hm h' L hw' hp'
    dsimp only
    cases e2 : c af h' with
    | val a h'' =>
      rw [e2] at this
      exact ⟨_, rfl, this⟩
    | ub u =>
      rw [e2] at this
      exact this.elim
    | thrown h'' =>
      rw [e2] at this
      obtain ⟨_, h, _⟩ := this
      cases h

/-- Other blocks do not matter. -/
theorem Tri.frame {α : Type} {pre} {x : HM α} {post exc} (R : List Block) (h : Tri pre x post exc) :
    Tri (pre ++ R) x (fun a => post a ++ R) (exc.map (· ++ R)) := by
  intro af hm hp L hw hL
  have := h af hm hp (R ++ L) hw (by rw [← List.append_assoc]; exact hL)
  cases e : x af hp with
  | val a h' =>
    rw [e] at this
    exact ⟨this.1, by rw [List.append_assoc]; exact this.2⟩
  | ub u =>
    rw [e] at this
    exact this.elim
  | thrown h' =>
    rw [e] at this
    obtain ⟨e0, he, hw', hp'⟩ := this
    cases he
    exact ⟨_, rfl, hw', by rw [List.append_assoc]; exact hp'⟩

/-- Order does not matter. -/
theorem Tri.conseq {α : Type} {pre pre'} {x : HM α} {post post' : α → List Block} {exc exc' : Option (List Block)}
    (h : Tri pre x post exc) (h1 : pre'.Perm pre) (h2 : ∀ a, (post a).Perm (post' a))
    (h3 : ∀ e, exc = some e → ∃ e', exc' = some e' ∧ e.Perm e') : Tri pre' x post' exc' := by
  intro af hm hp L hw hL
  have := h af hm hp L hw (hL.trans (h1.append_right _))
  cases e : x af hp with
  | val a h' =>
    rw [e] at this
    exact ⟨this.1, this.2.trans ((h2 a).append_right _)⟩
  | ub u =>
    rw [e] at this
    exact this.elim
  | thrown h' =>
    rw [e] at this
    obtain ⟨e0, he, hw', hp'⟩ := this
    obtain ⟨e1, h4, h5⟩ := h3 e0 he
    exact ⟨e1, h4, hw', hp'.trans (h5.append_right _)⟩

theorem Tri.noThrow {α : Type} {pre} {x : HM α} {post exc} (h : Tri pre x post none) : Tri pre x post exc :=
  h.conseq (List.Perm.refl _) (fun _ => List.Perm.refl _) (by rintro _ ⟨⟩)

theorem Heap.Wf.alloc {h : Heap} (hw : h.Wf) (kd : BlockKind) :
    Heap.Wf { live := (h.next, kd) :: h.live, next := h.next + 1 } := by
  refine ⟨?_, ?_⟩
  · simp only [List.map_cons, List.nodup_cons]
    refine ⟨?_, hw.nodup⟩
    intro hm
    obtain ⟨b, hb, he⟩ := List.mem_map.1 hm
    have := hw.lt b hb
    omega
  · intro b hb
    rcases List.mem_cons.1 hb with rfl | hb
    · exact Nat.lt_succ_self _
    · exact (hw.lt b hb).trans (Nat.lt_succ_self _)

theorem Heap.Wf.skip {h : Heap} (hw : h.Wf) : Heap.Wf { live := h.live, next := h.next + 1 } :=
  ⟨hw.nodup, fun b hb => (hw.lt b hb).trans (Nat.lt_succ_self _)⟩

theorem Heap.Wf.erase {h : Heap} (hw : h.Wf) (b : Block) : Heap.Wf { live := h.live.erase b, next := h.next } :=
  ⟨hw.nodup.sublist (List.erase_sublist.map _), fun c hc => hw.lt c (List.mem_of_mem_erase hc)⟩

theorem tri_opNew : Tri [] opNew (fun p => [(p, .opNew)]) (some []) := by
  intro af _ h L hw hp
  unfold opNew
  by_cases hf : af.opNew h.next = true
  · rw [if_pos hf]
    exact ⟨_, rfl, hw.skip, hp⟩
  · rw [if_neg hf]
    exact ⟨hw.alloc _, hp.cons _⟩

theorem tri_opDelete (p : Nat) : Tri [(p, .opNew)] (opDelete p) (fun _ => []) none := by
  intro af _ h L hw hp
  unfold opDelete
  have hm : (p, BlockKind.opNew) ∈ h.live := hp.mem_iff.2 (by simp)
  rw [if_pos hm]
  refine ⟨hw.erase _, ?_⟩
  have := hp.erase (p, BlockKind.opNew)
  simpa using this

/-- Blocks of the array `a`. -/
def arrBlocks (a : Option Nat) : List Block := a.toList.map fun p => (p, .malloc)

/-- Blocks of the vector `v`. -/
def vecBlocks (v : Option Nat) : List Block := v.toList.map fun p => (p, .opNew)

theorem HM.bind_val {α β : Type} {x : HM α} {f : α → HM β} {af : AllocFail} {h h' : Heap} {a : α} (e : x af h = .val a h') :
    (x >>= f) af h = f a af h' := by
  show (match x af h with
    | .val a h => f a af h
    | .thrown h => .thrown h
    | .ub u => .ub u : Out β) = _
  rw [e]

theorem arrNew_eq (n : Nat) (af : AllocFail) (hm : ∀ i, af.malloc i = false) (h : Heap) :
    arrNew n af h = .val (some h.next) { live := (h.next, .malloc) :: h.live, next := h.next + 1 } := by
  have e : cMalloc af h = .val (some h.next) { live := (h.next, .malloc) :: h.live, next := h.next + 1 } :=
    if_neg (by rw [hm]; decide)
  exact HM.bind_val e

theorem tri_arrNew (n : Nat) (exc) : Tri [] (arrNew n) arrBlocks exc := by
  intro af hm h L hw hp
  have e := arrNew_eq n af hm h
  rw [e]
  exact ⟨hw.alloc _, hp.cons _⟩

theorem tri_arrDelete (a : Option Nat) : Tri (arrBlocks a) (arrDelete a) (fun _ => []) none := by
  cases a with
  | none => exact Tri.pure () (fun _ => []) none
  | some p =>
    intro af _ h L hw hp
    have hm : (p, BlockKind.malloc) ∈ h.live := hp.mem_iff.2 (by simp [arrBlocks])
    have e : arrDelete (some p) af h = .val () { h with live := h.live.erase (p, .malloc) } := if_pos hm
    rw [e]
    refine ⟨hw.erase _, ?_⟩
    have := hp.erase (p, BlockKind.malloc)
    simpa [arrBlocks] using this

theorem tri_vecNew (n : Nat) : Tri [] (vecNew n) vecBlocks (some []) := by
  unfold vecNew
  by_cases h : n = 0
  · rw [if_pos h]
    exact Tri.pure none vecBlocks _
  · rw [if_neg h]
    exact tri_opNew.bind fun a => Tri.pure (some a) vecBlocks _

theorem tri_vecDelete (v : Option Nat) : Tri (vecBlocks v) (vecDelete v) (fun _ => []) none := by
  cases v with
  | none => exact Tri.pure () (fun _ => []) none
  | some p => exact tri_opDelete p

/-- Blocks of an implementation object. -/
def ImplMem.blocks (m : ImplMem) : List Block :=
  (m.obj, .opNew) :: (vecBlocks m.taps ++ m.arrays.flatMap arrBlocks)

theorem tri_sseTapsNew (order : Nat) : Tri [] (sseTapsNew order) arrBlocks (some []) := by
  unfold sseTapsNew
  refine (tri_vecNew _).bind fun tmp => ?_
  refine Tri.bind (mid := fun a => arrBlocks a ++ vecBlocks tmp) ?_ fun a => ?_
  · refine Tri.onThrow (exc' := vecBlocks tmp) ?_ (tri_vecDelete tmp)
    exact (Tri.frame (vecBlocks tmp) (tri_arrNew _ (some []))).conseq (List.Perm.refl _) (fun _ => List.Perm.refl _)
      (by rintro _ ⟨⟩; exact ⟨_, rfl, List.Perm.refl _⟩)
  · refine Tri.bind (mid := fun _ => arrBlocks a) ?_ fun _ => Tri.pure a arrBlocks _
    exact (Tri.frame (arrBlocks a) (tri_vecDelete tmp)).conseq List.perm_append_comm (fun _ => List.Perm.refl _) (by rintro _ ⟨⟩)

/-- Build a member `x`, then the rest; if the rest throws, the member is destroyed. -/
theorem Tri.member {α β : Type} {P : List Block} {x : HM α} {own : α → List Block} {del : α → HM Unit} {rest : α → HM β}
    {post : β → List Block} (hx : Tri [] x own (some [])) (hd : ∀ a, Tri (own a) (del a) (fun _ => []) none)
    (hr : ∀ a, Tri (own a ++ P) (rest a) post (some (own a ++ P))) :
    Tri P (x >>= fun a => HM.onThrow (rest a) (del a)) post (some P) := by
  refine Tri.bind (mid := fun a => own a ++ P) ?_ fun a => Tri.onThrow (hr a) ?_
  · exact (Tri.frame P hx).conseq (List.Perm.refl _) (fun _ => List.Perm.refl _) (by rintro _ ⟨⟩; exact ⟨_, rfl, List.Perm.refl _⟩)
  · exact Tri.frame P (hd a)

theorem Tri.last {α β : Type} {P : List Block} {x : HM α} {own : α → List Block} {f : α → β} {post : β → List Block}
    (hx : Tri [] x own (some [])) (hp : ∀ a, (own a ++ P).Perm (post (f a))) :
    Tri P (x >>= fun a => Pure.pure (f a)) post (some P) := by
  refine Tri.bind (mid := fun a => own a ++ P) ?_ fun a => ?_
  · exact (Tri.frame P hx).conseq (List.Perm.refl _) (fun _ => List.Perm.refl _) (by rintro _ ⟨⟩; exact ⟨_, rfl, List.Perm.refl _⟩)
  · exact (Tri.pure (f a) post _).conseq (hp a) (fun _ => List.Perm.refl _) (fun e he => ⟨e, he, List.Perm.refl _⟩)

theorem arrBlocks_append (a : Option Nat) (l : List (Option Nat)) : (a :: l).flatMap arrBlocks = arrBlocks a ++ l.flatMap arrBlocks := rfl

theorem tri_firUpMem (order : Nat) : Tri [] (firUpMem order) ImplMem.blocks (some []) := by
  unfold firUpMem
  refine Tri.member tri_opNew tri_opDelete fun obj => ?_
  refine Tri.member (tri_vecNew _) tri_vecDelete fun taps => ?_
  refine Tri.member (tri_arrNew _ _) tri_arrDelete fun history => ?_
  refine Tri.last (tri_sseTapsNew _) fun sse => ?_
  simp only [ImplMem.blocks, List.flatMap_cons, List.flatMap_nil, List.append_nil]
  rw [List.perm_iff_count]
  intro b
  simp only [List.count_append, List.count_cons, List.count_nil]
  omega

theorem tri_firDownMem (order : Nat) : Tri [] (firDownMem order) ImplMem.blocks (some []) := by
  unfold firDownMem
  refine Tri.member tri_opNew tri_opDelete fun obj => ?_
  refine Tri.member (tri_vecNew _) tri_vecDelete fun taps => ?_
  refine Tri.member (tri_arrNew _ _) tri_arrDelete fun even => ?_
  refine Tri.member (tri_arrNew _ _) tri_arrDelete fun odd => ?_
  refine Tri.last (tri_sseTapsNew _) fun sse => ?_
  simp only [ImplMem.blocks, List.flatMap_cons, List.flatMap_nil, List.append_nil]
  rw [List.perm_iff_count]
  intro b
  simp only [List.count_append, List.count_cons, List.count_nil]
  omega

theorem tri_iirMem : Tri [] iirMem ImplMem.blocks (some []) :=
  Tri.last (f := fun obj => ({ obj := obj, taps := none, arrays := [] } : ImplMem)) tri_opNew fun _ => List.Perm.refl _

theorem tri_arraysDelete (l : List (Option Nat)) : Tri (l.flatMap arrBlocks) (arraysDelete l) (fun _ => []) none := by
  induction l with
  | nil => exact Tri.pure () (fun _ => []) none
  | cons a l ih => exact (Tri.frame (l.flatMap arrBlocks) (tri_arrDelete a)).bind fun _ => ih

theorem tri_implDelete (m : ImplMem) : Tri m.blocks (implDelete m) (fun _ => []) none := by
  unfold implDelete
  refine Tri.bind (mid := fun _ => vecBlocks m.taps ++ [(m.obj, .opNew)]) ?_ fun _ => ?_
  · refine (Tri.frame (vecBlocks m.taps ++ [(m.obj, .opNew)]) (tri_arraysDelete m.arrays.reverse)).conseq ?_
      (fun _ => List.Perm.refl _) (by rintro _ ⟨⟩)
    have h : (m.arrays.reverse.flatMap arrBlocks).Perm (m.arrays.flatMap arrBlocks) := (List.reverse_perm _).flatMap_right _
    refine List.Perm.trans ?_ (h.symm.append_right _)
    rw [List.perm_iff_count]
    intro b
    simp only [ImplMem.blocks, List.count_append, List.count_cons, List.count_nil]
    omega
  · exact (Tri.frame [(m.obj, .opNew)] (tri_vecDelete m.taps)).bind fun _ => tri_opDelete m.obj

/-- Blocks behind a `unique_ptr`. -/
def ptrBlocks : Option ImplMem → List Block
  | none => []
  | some m => m.blocks

/-- Blocks of a resampler. -/
def Own.blocks (o : Own) : List Block := ptrBlocks o.x2 ++ (ptrBlocks o.x4 ++ ptrBlocks o.x8)

theorem tri_ptrDelete (p : Option ImplMem) : Tri (ptrBlocks p) (ptrDelete p) (fun _ => []) none := by
  cases p with
  | none => exact Tri.pure () (fun _ => []) none
  | some m => exact tri_implDelete m

theorem tri_ownDelete (o : Own) : Tri o.blocks o.delete (fun _ => []) none := by
  unfold Own.delete
  refine Tri.conseq (exc := none) (pre := ptrBlocks o.x8 ++ (ptrBlocks o.x4 ++ ptrBlocks o.x2)) ?_ ?_ (fun _ => List.Perm.refl _) (by rintro _ ⟨⟩)
  · refine (Tri.frame (ptrBlocks o.x4 ++ ptrBlocks o.x2) (tri_ptrDelete o.x8)).bind fun _ => ?_
    exact (Tri.frame (ptrBlocks o.x2) (tri_ptrDelete o.x4)).bind fun _ => tri_ptrDelete o.x2
  · rw [List.perm_iff_count]
    intro b
    simp only [Own.blocks, List.count_append]
    omega

theorem tri_ownRelease (o : Own) :
    Tri o.blocks (do ptrDelete o.x2; ptrDelete o.x4; ptrDelete o.x8 : HM Unit) (fun _ => []) none := by
  refine (Tri.frame (ptrBlocks o.x4 ++ ptrBlocks o.x8) (tri_ptrDelete o.x2)).bind fun _ => ?_
  exact (Tri.frame (ptrBlocks o.x8) (tri_ptrDelete o.x4)).bind fun _ => tri_ptrDelete o.x8

theorem tri_createMem (cfg : Config) (k : Nat) : Tri [] (createMem cfg k) ptrBlocks (some []) := by
  have some' : ∀ x : HM ImplMem, Tri [] x ImplMem.blocks (some []) →
      Tri [] (do pure (some (← x)) : HM (Option ImplMem)) ptrBlocks (some []) :=
    fun x h => Tri.last (f := some) h fun _ => by rw [List.append_nil]; exact List.Perm.refl _
  unfold createMem
  cases cfg.filter with
  | fir =>
    cases firTable k cfg.precision with
    | none => exact Tri.pure none ptrBlocks _
    | some t =>
      cases cfg.mode with
      | up => exact some' _ (tri_firUpMem _)
      | down => exact some' _ (tri_firDownMem _)
  | iir =>
    cases iirTable k cfg.precision with
    | none => exact Tri.pure none ptrBlocks _
    | some t => exact some' _ tri_iirMem

theorem tri_initStageMem (cfg : Config) (k : Nat) : Tri [] (initStageMem cfg none k) ptrBlocks (some []) := by
  unfold initStageMem
  split
  · exact Tri.pure none ptrBlocks _
  · refine (tri_createMem cfg k).bind fun p => ?_
    refine Tri.bind (mid := fun _ => ptrBlocks p) ?_ fun _ => Tri.pure p ptrBlocks _
    exact Tri.pure () (fun _ => ptrBlocks p) _

theorem tri_ownNew (cfg : Config) : Tri [] (Own.new cfg) Own.blocks (some []) := by
  have st : ∀ (k : Nat) (o : Own), Tri o.blocks (HM.onThrow (initStageMem cfg none k) o.delete)
      (fun p => ptrBlocks p ++ o.blocks) (some []) := by
    intro k o
    refine Tri.onThrow (exc' := o.blocks) ?_ (tri_ownDelete o)
    exact (Tri.frame o.blocks (tri_initStageMem cfg k)).conseq (List.Perm.refl _) (fun _ => List.Perm.refl _)
      (by rintro _ ⟨⟩; exact ⟨_, rfl, List.Perm.refl _⟩)
  unfold Own.new
  refine (st 2 ⟨none, none, none⟩).bind fun x2 => ?_
  refine Tri.bind (mid := fun x4 => ptrBlocks x4 ++ Own.blocks ⟨x2, none, none⟩) ((st 4 ⟨x2, none, none⟩).conseq ?_
    (fun _ => List.Perm.refl _) (by rintro _ ⟨⟩; exact ⟨_, rfl, List.Perm.refl _⟩)) fun x4 => ?_
  · simp [Own.blocks, ptrBlocks]
  refine Tri.bind (mid := fun x8 => ptrBlocks x8 ++ Own.blocks ⟨x2, x4, none⟩) ((st 8 ⟨x2, x4, none⟩).conseq ?_
    (fun _ => List.Perm.refl _) (by rintro _ ⟨⟩; exact ⟨_, rfl, List.Perm.refl _⟩)) fun x8 => ?_
  · rw [List.perm_iff_count]
    intro b
    simp only [Own.blocks, ptrBlocks, List.count_append, List.count_nil]
    omega
  refine (Tri.pure (⟨x2, x4, x8⟩ : Own) Own.blocks _).conseq ?_ (fun _ => List.Perm.refl _) (fun e he => ⟨e, he, List.Perm.refl _⟩)
  rw [List.perm_iff_count]
  intro b
  simp only [Own.blocks, ptrBlocks, List.count_append, List.count_nil]
  omega

/-! ## How many blocks -/

/-- If `x` returns, it returns something with property `P` (when `malloc` does not fail). -/
def Ret {α : Type} (x : HM α) (P : α → Prop) : Prop :=
  ∀ (af : AllocFail) (_ : ∀ i, af.malloc i = false) (h h' : Heap) (a : α), x af h = .val a h' → P a

theorem Ret.pure {α : Type} {P : α → Prop} {a : α} (h : P a) : Ret (Pure.pure a : HM α) P := by
  intro af _ h0 h' b e
  cases e
  exact h

theorem Ret.bind {α β : Type} {x : HM α} {f : α → HM β} {P : α → Prop} {Q : β → Prop} (h1 : Ret x P) (h2 : ∀ a, P a → Ret (f a) Q) :
    Ret (x >>= f) Q := by
  intro af hm h h' b e
  change (match x af h with
    | .val a h => f a af h
    | .thrown h => .thrown h
    | .ub u => .ub u : Out β) = _ at e
  cases e1 : x af h with
  | val a h1' =>
    rw [e1] at e
    exact h2 a (h1 af hm h h1' a e1) af hm h1' h' b e
  | thrown _ => rw [e1] at e; cases e
  | ub _ => rw [e1] at e; cases e

theorem Ret.onThrow {α : Type} {x : HM α} {c : HM Unit} {P : α → Prop} (h1 : Ret x P) : Ret (HM.onThrow x c) P := by
  intro af hm h h' a e
  unfold HM.onThrow at e
  cases e1 : x af h with
  | val b h1' =>
    rw [e1] at e
    cases e
    exact h1 af hm h _ _ e1
  | thrown h2 =>
    rw [e1] at e
    cases e2 : c af h2 with
    | val _ _ => simp only [e2] at e; cases e
    | thrown _ => simp only [e2] at e; cases e
    | ub _ => simp only [e2] at e; cases e
  | ub _ => rw [e1] at e; cases e

theorem Ret.trivial {α : Type} (x : HM α) : Ret x fun _ => True := fun _ _ _ _ _ _ => True.intro

theorem ret_arrNew (n : Nat) : Ret (arrNew n) fun a => (arrBlocks a).length = 1 := by
  intro af hm h h' a e
  have e' := arrNew_eq n af hm h
  rw [e'] at e
  cases e
  rfl

theorem ret_vecNew {n : Nat} (hn : 0 < n) : Ret (vecNew n) fun a => (vecBlocks a).length = 1 := by
  unfold vecNew
  rw [if_neg (by omega)]
  exact (Ret.trivial _).bind fun a _ => Ret.pure rfl

theorem ret_sseTapsNew (n : Nat) : Ret (sseTapsNew n) fun a => (arrBlocks a).length = 1 :=
  (Ret.trivial _).bind fun _ _ => (ret_arrNew _).onThrow.bind fun _ h => (Ret.trivial _).bind fun _ _ => Ret.pure h

theorem ret_firUpMem {n : Nat} (hn : 0 < n) : Ret (firUpMem n) fun m => m.blocks.length = 4 :=
  (Ret.trivial _).bind fun _ _ => Ret.onThrow ((ret_vecNew hn).bind fun _ h1 => Ret.onThrow ((ret_arrNew _).bind fun _ h2 =>
    Ret.onThrow ((ret_sseTapsNew n).bind fun _ h3 => Ret.pure (by
      simp [ImplMem.blocks, List.flatMap_cons, h1, h2, h3]))))

theorem ret_firDownMem {n : Nat} (hn : 0 < n) : Ret (firDownMem n) fun m => m.blocks.length = 5 :=
  (Ret.trivial _).bind fun _ _ => Ret.onThrow ((ret_vecNew hn).bind fun _ h1 => Ret.onThrow ((ret_arrNew _).bind fun _ h2 =>
    Ret.onThrow ((ret_arrNew _).bind fun _ h3 => Ret.onThrow ((ret_sseTapsNew n).bind fun _ h4 => Ret.pure (by
      simp [ImplMem.blocks, List.flatMap_cons, h1, h2, h3, h4])))))

theorem ret_iirMem : Ret iirMem fun m => m.blocks.length = 1 :=
  (Ret.trivial _).bind fun _ _ => Ret.pure rfl

theorem ret_initStageMem (cfg : Config) (hv : cfg.Valid) {k : Nat} (hk : k ∈ [2, 4, 8]) :
    Ret (initStageMem cfg none k) fun p => (ptrBlocks p).length = (if k ≤ cfg.ratio then 1 else 0) * Config.blocks.stage cfg := by
  unfold initStageMem
  by_cases h : k ≤ cfg.ratio
  · rw [if_neg (by simp; omega)]
    refine Ret.bind (P := fun p => (ptrBlocks p).length = (if k ≤ cfg.ratio then 1 else 0) * Config.blocks.stage cfg) ?_
      fun p hp => (Ret.trivial _).bind fun _ _ => Ret.pure hp
    rw [if_pos h, Nat.one_mul]
    unfold createMem Config.blocks.stage
    cases hf : cfg.filter with
    | fir =>
      obtain ⟨t, ht, h0⟩ : ∃ t, firTable k cfg.precision = some t ∧ 0 < t.length := by
        have : ∀ k ∈ [2, 4, 8], ∀ p ∈ [1, 8, 12, 16, 20, 24], ∃ t, firTable k p = some t ∧ 0 < t.length := by decide +kernel
        exact this k hk _ hv.precision
      rw [ht]
      cases cfg.mode with
      | up => exact (ret_firUpMem h0).bind fun m hm => Ret.pure hm
      | down => exact (ret_firDownMem h0).bind fun m hm => Ret.pure hm
    | iir =>
      obtain ⟨t, ht⟩ : ∃ t, iirTable k cfg.precision = some t := by
        have : ∀ k ∈ [2, 4, 8], ∀ p ∈ [1, 8, 12, 16, 20, 24], p ≠ 1 → (iirTable k p).isSome = true := by decide +kernel
        exact Option.isSome_iff_exists.1 (this k hk _ hv.precision (hv.iir hf))
      rw [ht]
      exact ret_iirMem.bind fun m hm => Ret.pure hm
  · rw [if_pos (by simp; omega), if_neg h]
    exact Ret.pure (by simp [ptrBlocks])

theorem ret_ownNew (cfg : Config) (hv : cfg.Valid) : Ret (Own.new cfg) fun o => o.blocks.length = cfg.blocks :=
  (ret_initStageMem cfg hv (by decide)).onThrow.bind fun _ h2 => (ret_initStageMem cfg hv (by decide)).onThrow.bind fun _ h4 =>
    (ret_initStageMem cfg hv (by decide)).onThrow.bind fun _ h8 => Ret.pure (by
      simp only [Own.blocks, List.length_append, h2, h4, h8, Config.blocks]
      omega)

end Panda
