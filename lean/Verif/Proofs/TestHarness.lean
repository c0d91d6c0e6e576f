import Mathlib.Data.List.Basic
import Verif.Model.TestHarness
import Verif.Proofs.Query

/-!
# The tests run by the test program
-/

set_option linter.unusedSectionVars false

namespace Panda.Tool

open Panda

variable {F : Type} [Zero F] [One F] [Add F] [Sub F] [Mul F] [Sample F]

/-- The options make sense. -/
structure Setup.Ok (su : Setup) : Prop where
  precision : su.precision ∈ [1, 8, 12, 16, 20, 24]
  sse : su.useSse = true → su.bld.sse = true ∨ su.bld.neon = true

theorem Setup.Ok.ups {su : Setup} (h : su.Ok) : su.ups.Valid := ⟨by simp [Setup.ups], h.precision, by simp [Setup.ups]⟩
theorem Setup.Ok.downs {su : Setup} (h : su.Ok) : su.downs.Valid := ⟨by simp [Setup.downs], h.precision, by simp [Setup.downs]⟩

/-- Number of outputs for `n` inputs. -/
def outN (t : ResampleType) (n : Nat) : Nat :=
  match t with
  | .up => n * 2
  | .down => n / 2
  | .sub => n / 2 * 2
  | .over => n * 2 / 2

/-- `xs` has been passed in, `zs` has been produced. -/
def Streams (su : Setup) (u0 d0 : Resampler F) (s : St F) (xs zs : List F) : Prop :=
  match su.type with
  | .up => s.ups.State su.ups u0 xs zs ∧ s.downs.State su.downs d0 [] []
  | .down => s.downs.State su.downs d0 xs zs ∧ s.ups.State su.ups u0 [] []
  | .over => ∃ ms, s.ups.State su.ups u0 xs ms ∧ s.downs.State su.downs d0 ms zs
  | .sub => ∃ ms, s.downs.State su.downs d0 xs ms ∧ s.ups.State su.ups u0 ms zs

/-- The invariant of all tests. -/
structure Good (su : Setup) (u0 d0 : Resampler F) (s : St F) (xs zs : List F) : Prop where
  streams : Streams su u0 d0 s xs zs
  input : s.input.len = 2 * su.blockSize
  output : s.output.len = 2 * su.blockSize
  output2 : s.output2.len = 2 * su.blockSize

theorem up_call {su : Setup} {st : Stack F} {input output : Buf F} {n : Nat} (h1 : n < 2 ^ 31) (h2 : n ≤ input.len)
    (h3 : n * 2 ≤ output.len) : su.ups.CallOk ⟨st, input, n, output⟩ where
  uint := by simp only; omega
  input := h2
  output := h3
  mul := by simp [Setup.ups]
  large := fun _ _ _ => h1
  nonempty := by simp [Setup.ups]
  behind := by simp [Setup.ups]

theorem down_call {su : Setup} {st : Stack F} {input output : Buf F} {n : Nat} (h1 : n < 2 ^ 32) (h2 : n ≤ input.len)
    (h3 : n / 2 ≤ output.len) (h4 : n % 2 = 0) : su.downs.CallOk ⟨st, input, n, output⟩ where
  uint := h1
  input := h2
  output := h3
  mul := fun _ => h4
  large := by simp [Setup.downs]
  nonempty := by simp [Setup.downs]
  behind := by simp [Setup.downs]

theorem callBoth_sat {su : Setup} (hs : su.Ok) {u0 d0 : Resampler F} (hu0 : u0.Fresh su.ups) (hd0 : d0.Fresh su.downs) {s : St F}
    {xs zs : List F} (h : Good su u0 d0 s xs zs) {off n : Nat} (hb : su.blockSize < 2 ^ 31) (hn : n + off ≤ su.blockSize)
    {n2 : Res Nat} (hn2 : su.type = .over → n2 = .ok (n * 2)) (he : su.type = .down ∨ su.type = .sub → n % 2 = 0)
    (st : Stack F × Stack F) :
    Sat (callBoth su st off n n2 s) fun s' =>
      Good su u0 d0 s' (xs ++ (List.range n).map fun i => s.input.get (off + i))
        (zs ++ (s'.check su.type).toList (outN su.type n)) ∧ s'.input = s.input ∧
      ∀ j, outN su.type n ≤ j → (s'.check su.type).get j = (s.check su.type).get j := by
  obtain ⟨h, hi, ho, ho2⟩ := h
  have hil : (from_ s.input off).len = 2 * su.blockSize - off := by simp [from_, hi]
  have hsam : ∀ st o, (Call.samples ⟨st, from_ s.input off, n, o⟩ : List F) = (List.range n).map fun i => s.input.get (off + i) :=
    fun _ _ => rfl
  unfold callBoth
  unfold Streams at h
  cases ht : su.type with
  | up =>
    simp only [ht] at h ⊢
    refine sat_bind (h.1.step hs.ups hu0 (c := ⟨st.1, from_ s.input off, n, s.output⟩)
      (up_call (by omega) (by rw [hil]; omega) (by omega))) ?_
    rintro ⟨u, o⟩ ⟨h1, h2, -, h9⟩
    rw [hsam] at h1
    exact sat_ok ⟨⟨by unfold Streams; rw [ht]; exact ⟨h1, h.2⟩, hi, h2.trans ho, ho2⟩, rfl, h9⟩
  | down =>
    simp only [ht] at h ⊢
    refine sat_bind (h.1.step hs.downs hd0 (c := ⟨st.1, from_ s.input off, n, s.output⟩)
      (down_call (by omega) (by rw [hil]; omega) (by omega) (he (Or.inl ht)))) ?_
    rintro ⟨d, o⟩ ⟨h1, h2, -, h9⟩
    rw [hsam] at h1
    exact sat_ok ⟨⟨by unfold Streams; rw [ht]; exact ⟨h1, h.2⟩, hi, h2.trans ho, ho2⟩, rfl, h9⟩
  | sub =>
    simp only [ht] at h ⊢
    obtain ⟨ms, ha, hb'⟩ := h
    refine sat_bind (ha.step hs.downs hd0 (c := ⟨st.1, from_ s.input off, n, s.output⟩)
      (down_call (by omega) (by rw [hil]; omega) (by omega) (he (Or.inr ht)))) ?_
    rintro ⟨d, o⟩ ⟨h1, h2, -, -⟩
    rw [hsam] at h1
    have hol : o.len = 2 * su.blockSize := h2.trans ho
    refine sat_bind (hb'.step hs.ups hu0 (c := ⟨st.2, o, n / 2, s.output2⟩)
      (up_call (by omega) (by omega) (by omega))) ?_
    rintro ⟨u, o2⟩ ⟨h3, h4, -, h9⟩
    exact sat_ok ⟨⟨by unfold Streams; rw [ht]; exact ⟨_, h1, h3⟩, hi, hol, h4.trans ho2⟩, rfl, h9⟩
  | over =>
    simp only [ht] at h ⊢
    obtain ⟨ms, ha, hb'⟩ := h
    refine sat_bind (ha.step hs.ups hu0 (c := ⟨st.1, from_ s.input off, n, s.output⟩)
      (up_call (by omega) (by rw [hil]; omega) (by omega))) ?_
    rintro ⟨u, o⟩ ⟨h1, h2, -, -⟩
    rw [hsam] at h1
    have hol : o.len = 2 * su.blockSize := h2.trans ho
    rw [hn2 ht, ok_bind]
    refine sat_bind (hb'.step hs.downs hd0 (c := ⟨st.2, o, n * 2, s.output2⟩)
      (down_call (by omega) (by omega) (by omega) (by omega))) ?_
    rintro ⟨d, o2⟩ ⟨h3, h4, -, h9⟩
    exact sat_ok ⟨⟨by unfold Streams; rw [ht]; exact ⟨_, h1, h3⟩, hi, hol, h4.trans ho2⟩, rfl, h9⟩

theorem start_sat0 {su : Setup} (hs : su.Ok) :
    ∃ u0 d0 : Resampler F, u0.Fresh su.ups ∧ d0.Fresh su.downs ∧ Sat (start su) fun s => Streams su u0 d0 s [] [] ∧
      (s.input.len = u32 (su.blockSize * 2) ∧ s.output.len = u32 (su.blockSize * 2) ∧ s.output2.len = u32 (su.blockSize * 2)) ∧
      (∀ j, s.output.get j = 0) ∧ ∀ j, s.output2.get j = 0 := by
  obtain ⟨u0, hu, hu0⟩ := Resampler.new_fresh (F := F) hs.ups
  obtain ⟨d0, hd, hd0⟩ := Resampler.new_fresh (F := F) hs.downs
  refine ⟨u0, d0, hu0, hd0, ?_⟩
  have ru : su.ups.Reachable u0 := ⟨[], [], by simp, by simp [Config.session, hu, Resampler.runOps]⟩
  have rd : su.downs.Reachable d0 := ⟨[], [], by simp, by simp [Config.session, hd, Resampler.runOps]⟩
  have su1 : su.ups.stageSse = su.useSse := by
    have := hs.sse
    simp only [Config.stageSse, Config.vec, Setup.ups]
    cases h1 : su.bld.sse <;> cases h2 : su.bld.neon <;> cases h3 : su.useSse <;> simp_all
  have sd1 : su.downs.stageSse = su.useSse := by
    have := hs.sse
    simp only [Config.stageSse, Config.vec, Setup.downs]
    cases h1 : su.bld.sse <;> cases h2 : su.bld.neon <;> cases h3 : su.useSse <;> simp_all
  unfold start
  rw [hu, ok_bind, hd, ok_bind, ru.sseEnabled hs.ups (by simp [Setup.ups]), ok_bind, su1,
    rd.sseEnabled hs.downs (by simp [Setup.downs])]
  simp only [ok_bind, sd1, beq_self_eq_true, Build.assert, Bool.or_true, if_true, pure_eq_ok]
  refine sat_ok ⟨?_, ⟨rfl, rfl, rfl⟩, fun _ => rfl, fun _ => rfl⟩
  unfold Streams
  split
  · exact ⟨hu0.state, hd0.state⟩
  · exact ⟨hd0.state, hu0.state⟩
  · exact ⟨[], hu0.state, hd0.state⟩
  · exact ⟨[], hd0.state, hu0.state⟩

theorem start_sat {su : Setup} (hs : su.Ok) (hb : su.blockSize < 2 ^ 31) :
    ∃ u0 d0 : Resampler F, u0.Fresh su.ups ∧ d0.Fresh su.downs ∧ Sat (start su) fun s => Good su u0 d0 s [] [] ∧
      (∀ j, s.output.get j = 0) ∧ ∀ j, s.output2.get j = 0 := by
  obtain ⟨u0, d0, h1, h2, h⟩ := start_sat0 (F := F) hs
  have hl : u32 (su.blockSize * 2) = 2 * su.blockSize := by unfold u32; omega
  refine ⟨u0, d0, h1, h2, sat_mono h ?_⟩
  rintro s ⟨g1, ⟨g2, g3, g4⟩, g5⟩
  exact ⟨⟨g1, g2.trans hl, g3.trans hl, g4.trans hl⟩, g5⟩

theorem fill_sat {b : Buf F} (f : Nat → F) {n off : Nat} (h : n + off ≤ b.len) :
    Sat (forN (fun i (b : Buf F) => b.wr (i + off) (f i)) n b) fun c =>
      c.len = b.len ∧ c.addr = b.addr ∧ ∀ i < n, c.get (off + i) = f i := by
  have := sat_forN (body := fun i (b : Buf F) => b.wr (i + off) (f i))
    (fun m (c : Buf F) => c.len = b.len ∧ c.addr = b.addr ∧ ∀ i < m, c.get (off + i) = f i) (n := n) (s := b)
    ⟨rfl, rfl, by simp⟩ (by
      rintro i hi s ⟨h1, h2, h3⟩
      rw [Buf.wr_eq _ (by omega)]
      refine sat_ok ⟨h1, h2, ?_⟩
      intro j hj
      rw [Buf.upd_get]
      by_cases e : j = i
      · rw [if_pos (by omega), e]
      · rw [if_neg (by omega), h3 j (by omega)])
  exact this

theorem fill_error (f : Nat → F) {b : Buf F} {n : Nat} (h : b.len < n) :
    forN (fun i (b : Buf F) => b.wr i (f i)) n b = .error .oobWrite := by
  induction n with
  | zero => omega
  | succ n ih =>
    rw [forN]
    by_cases h' : b.len < n
    · rw [ih h']; rfl
    · have e : b.len = n := by omega
      obtain ⟨c, hc, h1, -⟩ := fill_sat (b := b) f (n := n) (off := 0) (by omega)
      simp only [Nat.add_zero] at hc
      rw [hc, ok_bind, Buf.wr, if_neg (by omega)]

theorem perf_sat {su : Setup} (hs : su.Ok) (he : su.blockSize % 2 = 0) (hb : su.blockSize < 2 ^ 31) {u0 d0 : Resampler F}
    (hu0 : u0.Fresh su.ups) (hd0 : d0.Fresh su.downs) {s : St F} {xs zs : List F} (h : Good su u0 d0 s xs zs) (sig : Nat → F)
    (stk : Nat → Stack F × Stack F) (reps : Nat) :
    Sat (perf su sig stk reps s) fun s' => ∃ zs', Good su u0 d0 s'
      (xs ++ (List.replicate reps ((List.range su.blockSize).map sig)).flatten) (zs ++ zs') := by
  unfold perf
  refine sat_bind (fill_sat (off := 0) sig (by rw [h.input]; omega)) ?_
  rintro inp ⟨h1, h2, h3⟩
  have hn2 : u32 (su.blockSize * 2) = su.blockSize * 2 := by unfold u32; omega
  refine sat_mono (sat_forN (fun m (s' : St F) => (∃ zs', Good su u0 d0 s'
    (xs ++ (List.replicate m ((List.range su.blockSize).map sig)).flatten) (zs ++ zs')) ∧ s'.input = inp)
    ⟨⟨[], by simpa using ⟨h.streams, h1.trans h.input, h.output, h.output2⟩⟩, rfl⟩ ?_) fun s' q => q.1
  rintro i hi s' ⟨⟨zs', hg⟩, hin⟩
  refine sat_mono (callBoth_sat hs hu0 hd0 hg hb (off := 0) (n := su.blockSize) (by omega) (fun _ => by rw [hn2]; rfl)
    (fun _ => he) (stk i)) ?_
  rintro s'' ⟨hg', hin', -⟩
  refine ⟨⟨zs' ++ (s''.check su.type).toList (outN su.type su.blockSize), ?_⟩, hin'.trans hin⟩
  rw [List.replicate_succ', List.flatten_append]
  have : (List.range su.blockSize).map (fun i => s'.input.get (0 + i)) = (List.range su.blockSize).map sig := by
    apply List.map_congr_left
    intro j hj
    rw [hin]
    exact h3 j (by simpa using hj)
  rw [this] at hg'
  simpa [List.append_assoc] using hg'

/-- What is compared: the samples with number greater than `4 * order`. -/
def logOf (o : Nat) (ys : List F) : List (Nat × F) :=
  ((List.range ys.length).filter fun i => o * 4 < i).map fun i => (i, seq ys i)

theorem logOf_append (o : Nat) (ys ws : List F) : logOf o (ys ++ ws) = logOf o ys ++
    ((List.range ws.length).filter fun i => o * 4 < ys.length + i).map fun i => (ys.length + i, seq ws i) := by
  unfold logOf
  rw [List.length_append, List.range_add, List.filter_append, List.map_append, List.filter_map, List.map_map]
  congr 1
  · apply List.map_congr_left
    intro i hi
    simp only [List.mem_filter, List.mem_range] at hi
    simp [seq, List.getD, List.getElem?_append_left hi.1]
  · apply List.map_congr_left
    intro i _
    simp [seq, List.getD, List.getElem?_append_right]

theorem validate_sat {ups : Resampler F} {o : Nat} (ho : ups.order = .ok o) {check : Buf F} {n : Nat} (hn : n ≤ check.len)
    (ys : List F) :
    forN (validate ups check) n (ys.length, logOf o ys) = .ok (ys.length + n, logOf o (ys ++ check.toList n)) := by
  induction n with
  | zero => simp [forN, Buf.toList]
  | succ n ih =>
    have hl : (check.toList n).length = n := by simp [Buf.toList]
    have e : check.toList (n + 1) = check.toList n ++ [check.get n] := by simp [Buf.toList, List.range_succ]
    rw [forN, ih (by omega), ok_bind, validate, ho, ok_bind, e, ← List.append_assoc, logOf_append o (ys ++ check.toList n)]
    simp only [List.length_append, hl, List.length_cons, List.length_nil, Nat.zero_add, List.range_one]
    by_cases h : o * 4 < ys.length + n
    · rw [if_pos h, Buf.rd_eq (by omega)]
      simp [h, seq, Nat.add_assoc]
    · rw [if_neg h]
      simp [h, Nat.add_assoc]

/-- Does an iteration process a block? -/
def productive (su : Setup) (rand : Nat → Nat) (r : Nat) : Bool :=
  ¬ su.blockSize ≤ rand r % 4 ∧ ¬ rand (r + 1) % (su.blockSize + 1 - rand r % 4) < 2

/-- The invariant of the loop of the accuracy test. `hx`, `hz`: what has been passed in and produced before this frequency. -/
structure AccInv (su : Setup) (u0 d0 : Resampler F) (o : Nat) (sig : Nat → F) (hx hz : List F) (a : Acc F) : Prop where
  good : ∃ ys, Good su u0 d0 a.s (hx ++ (List.range a.phase).map sig) (hz ++ ys) ∧ ys.length = a.k ∧ a.log = logOf o ys
  even : su.type = .down ∨ su.type = .sub → a.phase % 2 = 0

theorem order_streams {su : Setup} {u0 d0 : Resampler F} (hu0 : u0.Fresh su.ups) {s : St F} {xs zs : List F}
    (h : Streams su u0 d0 s xs zs) : s.ups.order = .ok (su.ups.stageOrder 2) := by
  have key : ∀ {xs zs}, s.ups.State su.ups u0 xs zs → s.ups.order = .ok (su.ups.stageOrder 2) := by
    intro xs zs h
    rw [h.evolves.order]
    have := hu0.x2
    rw [if_pos (by simp [Setup.ups])] at this
    obtain ⟨a, -, ha, -, -, -, oa, -, -⟩ := this
    simp [Resampler.order, ha, deref, oa]
  unfold Streams at h
  split at h
  · exact key h.1
  · exact key h.2
  · obtain ⟨_, h1, h2⟩ := h; exact key h1
  · obtain ⟨_, h1, h2⟩ := h; exact key h2

theorem accIter_sat {su : Setup} (hs : su.Ok) (hb : su.blockSize < 2 ^ 30) {u0 d0 : Resampler F} (hu0 : u0.Fresh su.ups)
    (hd0 : d0.Fresh su.downs) {sig : Nat → F} {hx hz : List F} {a : Acc F}
    (h : AccInv su u0 d0 (su.ups.stageOrder 2) sig hx hz a) (stk : Nat → Stack F × Stack F) (rand : Nat → Nat) :
    Sat (accIter su sig stk rand a) fun a' => AccInv su u0 d0 (su.ups.stageOrder 2) sig hx hz a' ∧
      (if productive su rand a.r = true then a.k < a'.k else a.k = a'.k) ∧ (4 ≤ su.blockSize → a'.r = a.r + 2) := by
  have hm : rand a.r % 4 < 4 := Nat.mod_lt _ (by omega)
  unfold accIter
  simp only
  by_cases h1 : su.blockSize ≤ rand a.r % 4
  · rw [if_pos h1]
    exact sat_ok ⟨⟨h.good, h.even⟩, by simp [productive, h1], fun _ => by omega⟩
  have hu : u32 (su.blockSize + 1 - rand a.r % 4) = su.blockSize + 1 - rand a.r % 4 := by unfold u32; omega
  rw [if_neg h1, hu]
  by_cases h2 : rand (a.r + 1) % (su.blockSize + 1 - rand a.r % 4) < 2
  · rw [if_pos h2]
    exact sat_ok ⟨⟨h.good, h.even⟩, by simp [productive, h2], fun _ => rfl⟩
  rw [if_neg h2]
  have hlt := Nat.mod_lt (rand (a.r + 1)) (show 0 < su.blockSize + 1 - rand a.r % 4 by omega)
  have hp : productive su rand a.r = true := by simp [productive, h1, h2]
  generalize hbs : blockLen su.type (rand (a.r + 1) % (su.blockSize + 1 - rand a.r % 4)) = bs
  have hbs2 : 2 ≤ bs ∧ bs + rand a.r % 4 ≤ su.blockSize ∧ (su.type = .down ∨ su.type = .sub → bs % 2 = 0) := by
    rw [← hbs]
    unfold blockLen
    cases su.type <;> simp <;> omega
  obtain ⟨hb2, hb3, hb4⟩ := hbs2
  obtain ⟨ys, hg, hlen, hlog⟩ := h.good
  have hin := hg.input
  refine sat_bind (fill_sat (off := rand a.r % 4) (fun i => sig (a.phase + i)) (by rw [hin]; omega)) ?_
  rintro inp ⟨i1, i2, i3⟩
  have hg' : Good su u0 d0 { a.s with input := inp } (hx ++ (List.range a.phase).map sig) (hz ++ ys) :=
    ⟨hg.streams, i1.trans hin, hg.output, hg.output2⟩
  refine sat_bind (callBoth_sat hs hu0 hd0 hg' (by omega) hb3 (n2 := int32 (bs * 2))
    (fun _ => by unfold int32; rw [if_pos (by omega)]; rfl) hb4 (stk a.blocks)) ?_
  rintro s' ⟨g, -, -⟩
  have hout : outBs su.type bs = .ok (outN su.type bs) := by
    unfold outBs outN
    cases ht : su.type with
    | up => simp only [int32]; rw [if_pos (by omega)]; rfl
    | down => rfl
    | sub => have := hb4 (Or.inr ht); simp only [pure_eq_ok, Except.ok.injEq]; omega
    | over => simp only [pure_eq_ok, Except.ok.injEq]; omega
  rw [hout, ok_bind]
  have hpos : 0 < outN su.type bs ∧ outN su.type bs ≤ 2 * su.blockSize := by
    unfold outN
    cases su.type <;> simp <;> omega
  have hcl : (s'.check su.type).len = 2 * su.blockSize := by
    unfold St.check
    cases su.type
    · exact g.output
    · exact g.output
    · exact g.output2
    · exact g.output2
  have := validate_sat (order_streams hu0 g.streams) (check := s'.check su.type) (n := outN su.type bs)
    (by rw [hcl]; exact hpos.2) ys
  rw [hlen] at this
  rw [hlog, this, ok_bind]
  refine sat_ok ⟨⟨⟨ys ++ (s'.check su.type).toList (outN su.type bs), ?_, ?_, rfl⟩, ?_⟩, ?_, fun _ => rfl⟩
  · have e : (List.range bs).map (fun i => inp.get (rand a.r % 4 + i)) = (List.range bs).map fun i => sig (a.phase + i) :=
      List.map_congr_left fun i hi => i3 i (by simpa using hi)
    simp only [e] at g
    rw [List.range_add, List.map_append, List.map_map]
    simpa [List.append_assoc, Function.comp_def] using g
  · simp [hlen, Buf.toList]
  · intro ht
    have h1 := h.even ht
    have h2 := hb4 ht
    simp only
    omega
  · rw [if_pos hp]
    simp only
    omega

theorem accRun_sat {su : Setup} (hs : su.Ok) (hb : su.blockSize < 2 ^ 30) {u0 d0 : Resampler F} (hu0 : u0.Fresh su.ups)
    (hd0 : d0.Fresh su.downs) {sig : Nat → F} {hx hz : List F} {a : Acc F}
    (h : AccInv su u0 d0 (su.ups.stageOrder 2) sig hx hz a) (stk : Nat → Stack F × Stack F) (rand : Nat → Nat) (n : Nat) :
    Sat (accRun su sig stk rand n a) fun a' => AccInv su u0 d0 (su.ups.stageOrder 2) sig hx hz a' ∧
      (4 ≤ su.blockSize → a'.k < 20000 →
        a.k + ((List.range n).filter fun j => productive su rand (a.r + 2 * j)).length ≤ a'.k) := by
  induction n generalizing a with
  | zero => exact sat_ok ⟨h, fun _ _ => by simp⟩
  | succ n ih =>
    rw [accRun]
    split
    · refine sat_bind (accIter_sat hs hb hu0 hd0 h stk rand) ?_
      rintro a1 ⟨h1, h2, h3⟩
      refine sat_mono (ih h1) ?_
      rintro a2 ⟨g1, g2⟩
      refine ⟨g1, fun h4 hk => ?_⟩
      have := g2 h4 hk
      rw [List.range_succ_eq_map, List.filter_cons, List.filter_map, Nat.mul_zero, Nat.add_zero]
      have e : ((fun j => productive su rand (a.r + 2 * j)) ∘ Nat.succ) = fun j => productive su rand (a1.r + 2 * j) := by
        funext j
        simp only [Function.comp, h3 h4]
        congr 1
        simp only [Nat.succ_eq_add_one]
        omega
      rw [e]
      split at h2
      · rename_i hp
        rw [if_pos hp]
        simp only [List.length_cons, List.length_map]
        omega
      · rename_i hp
        rw [if_neg hp]
        simp only [List.length_map]
        omega
    · exact sat_ok ⟨h, fun _ hk => by omega⟩

theorem accFreqs_sat {su : Setup} (hs : su.Ok) (hb : su.blockSize < 2 ^ 30) {u0 d0 : Resampler F} (hu0 : u0.Fresh su.ups)
    (hd0 : d0.Fresh su.downs) (stk : Nat → Stack F × Stack F) (rand : Nat → Nat) (sigs : List ((Nat → F) × Nat)) {s : St F}
    {hx hz : List F} (h : Good su u0 d0 s hx hz) (hx2 : su.type = .down ∨ su.type = .sub → hx.length % 2 = 0) (r blocks : Nat) :
    Sat (accFreqs su stk rand sigs s r blocks) fun as => as.length = sigs.length ∧ ∀ p ∈ sigs.zip as, ∃ hx hz,
      (su.type = .down ∨ su.type = .sub → hx.length % 2 = 0) ∧ (∃ s0, Good su u0 d0 s0 hx hz) ∧
      AccInv su u0 d0 (su.ups.stageOrder 2) p.1.1 hx hz p.2 ∧ ∃ r0, 4 ≤ su.blockSize → p.2.k < 20000 →
        ((List.range p.1.2).filter fun j => productive su rand (r0 + 2 * j)).length ≤ p.2.k := by
  induction sigs generalizing s hx hz r blocks with
  | nil => exact sat_ok ⟨rfl, by simp⟩
  | cons q l ih =>
    obtain ⟨sig, n⟩ := q
    rw [accFreqs]
    have h0 : AccInv su u0 d0 (su.ups.stageOrder 2) sig hx hz ⟨s, 0, 0, r, blocks, []⟩ :=
      ⟨⟨[], by simpa using h, rfl, rfl⟩, fun _ => rfl⟩
    refine sat_bind (accRun_sat hs hb hu0 hd0 h0 stk rand n) ?_
    rintro a ⟨ha, hcnt⟩
    obtain ⟨ys, hg, -, -⟩ := ha.good
    refine sat_bind (ih hg (fun ht => ?_) a.r a.blocks) ?_
    · have h1 := hx2 ht
      have h2 := ha.even ht
      simp only [List.length_append, List.length_map, List.length_range]
      omega
    · rintro as ⟨hl, hp⟩
      refine sat_ok ⟨by simp [hl], ?_⟩
      intro p hp'
      simp only [List.zip_cons_cons, List.mem_cons] at hp'
      rcases hp' with rfl | hp'
      · exact ⟨hx, hz, hx2, ⟨s, h⟩, ha, r, fun h4 hk => by simpa using hcnt h4 hk⟩
      · exact hp p hp'

end Panda.Tool
