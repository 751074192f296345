import Verif.DDP.Props
import Verif.Base.XQOrd
import Mathlib.Data.List.Chain

/-!
# C13: the total cost does not increase
-/

namespace Nmpc

/-- Facts about signs and comparisons used by the acceptance test.  They hold for IEEE doubles (also with NaN, infinities and signed
zeros, and with gradual underflow); below they are proved for the exact reals and for `XQ`. -/
structure OrdLaws (α : Type) [Sub α] [Div α] [Neg α] [Zero α] [One α] [FOps α] : Prop where
  zero_eq : eqb (0 : α) 0 = true
  neg_one : ltb (0 : α) (-1) = false
  le_lt : ∀ {a b : α}, leb 0 a = true → ltb a b = true → ltb 0 b = true
  div_pos : ∀ {x e : α}, ltb e 0 = false → eqb e 0 = false → ltb 0 (x / e) = true → ltb 0 x = true
  sub_pos : ∀ {a b : α}, ltb 0 (a - b) = true → leb b a = true
  sub_nonneg : ∀ {a b : α}, leb 0 (a - b) = true → leb b a = true
  le_trans : ∀ {a b c : α}, leb a b = true → leb b c = true → leb a c = true

theorem ordLaws_real : OrdLaws ℝ where
  zero_eq := by simp
  neg_one := by simp
  le_lt := by intro a b; simp only [leb_real, ltb_real]; exact lt_of_le_of_lt
  div_pos := by
    intro x e; simp only [ltb_real_false, eqb_real_false, ltb_real]
    intro h1 h2 h3
    have : 0 < e := lt_of_le_of_ne h1 (Ne.symm h2)
    exact (div_pos_iff_of_pos_right this).1 h3
  sub_pos := by intro a b; simp only [ltb_real, leb_real]; intro h; linarith
  sub_nonneg := by intro a b; simp only [leb_real]; intro h; linarith
  le_trans := by intro a b c; simp only [leb_real]; exact _root_.le_trans

theorem ordLaws_xq : OrdLaws XQ where
  zero_eq := by decide +kernel
  neg_one := by decide +kernel
  le_lt := XQ.le_lt
  div_pos := XQ.div_pos
  sub_pos := XQ.sub_pos
  sub_nonneg := XQ.sub_nonneg
  le_trans := XQ.le_trans

end Nmpc

namespace Nmpc.DDP

set_option linter.unusedSectionVars false

variable {α : Type} [Add α] [Sub α] [Mul α] [Div α] [Neg α] [Zero α] [One α] [FOps α]
variable {n : ℕ} {L : LLT α} {cfg : Config α}
variable {md : α → ℕ} {P : Callbacks n md} {lim : Option ((t : α) → Vec (md t) α × Vec (md t) α)}
  {dt t0 : α} {o o' : Obj n α} {x0 : Vec n α} {us : List (Σ k : ℕ, Vec k α)}
  {scratch : Scratch n (fun i => md (timeAt t0 dt i)) α}

/-- A successful step size whose expected update is not zero does not increase the cost. -/
theorem tryAlpha_cost {m : ℕ → ℕ} {N : ℕ} {S : Stages n m α} (hO : OrdLaws α)
    (ht : leb 0 cfg.costUpdateRatioThre = true) {s : Solver n m α} {a : α}
    (hs : (tryAlpha N cfg S s a).success = true) (he : eqb (tryAlpha N cfg S s a).expected 0 = false) :
    leb (totalCost N (tryAlpha N cfg S s a).cand) (totalCost N s.ctrl) = true := by
  have h0 : ltb 0 (tryAlpha N cfg S s a).ratio = true := hO.le_lt ht hs
  unfold tryAlpha at h0 he ⊢
  dsimp only at h0 he ⊢
  split at h0
  · split at h0
    · rename_i h1
      exact hO.sub_nonneg h1
    · rw [hO.neg_one] at h0; cases h0
  · rename_i h1
    exact hO.sub_pos (hO.div_pos (by simpa using h1) he h0)

/-- Relation between consecutive trace entries. -/
def NoIncrease (e e' : Trace α) : Prop :=
  eqb e'.expected 0 = false → e'.cost = e.cost ∨ leb e'.cost e.cost = true

theorem procOnce_noIncrease {m : ℕ → ℕ} {N : ℕ} {S : Stages n m α} (hO : OrdLaws α)
    (ht : leb 0 cfg.costUpdateRatioThre = true) (iter : ℕ) (s : Solver n m α) {e : Trace α}
    (he : e.cost = totalCost N s.ctrl) :
    ∃ e', (procOnce L N cfg S iter s).1.trace = s.trace ++ [e'] ∧ NoIncrease e e' ∧
      ((ltb cfg.costUpdateRatioThre e'.ratio = true → eqb e'.expected 0 = false) →
        totalCost N (procOnce L N cfg S iter s).1.ctrl = e.cost ∨
        leb (totalCost N (procOnce L N cfg S iter s).1.ctrl) e.cost = true) := by
  have hf := bwSearch_frame (L := L) (N := N) (cfg := cfg) (S := S) (startIter N cfg S iter s)
  have := procOnce_out (L := L) (N := N) (cfg := cfg) (S := S) iter s
  generalize procOnce L N cfg S iter s = r at this
  have hz : ∀ e' : Trace α, e'.expected = 0 → NoIncrease e e' := by
    intro e' h h'; rw [h, hO.zero_eq] at h'; cases h'
  cases this with
  | bwFail s2 hb =>
    rw [hb] at hf
    have hc : s2.ctrl = s.ctrl := hf.1
    exact ⟨_, hf.2.2, hz _ rfl, fun _ => .inl (by rw [hc, he])⟩
  | err s2 e1 he1 hb =>
    rw [hb] at hf
    have hc : s2.ctrl = s.ctrl := hf.1
    exact ⟨_, hf.2.2, hz _ rfl, fun _ => .inl (by rw [hc, he])⟩
  | small s2 hb hk hl =>
    rw [hb] at hf
    have hc : s2.ctrl = s.ctrl := hf.1
    exact ⟨_, rfl, hz _ rfl, fun _ => .inl (by rw [hc, he])⟩
  | full s2 hb hk =>
    rw [hb] at hf
    have hc : s2.ctrl = s.ctrl := hf.1
    refine ⟨_, rfl, ?_⟩
    have hq := finishStep_out (N := N) (cfg := cfg) s.trace
      { Trace.new iter with
        kRelNorm := kRelNorm N s2
        alpha := (lineSearch N cfg S s2).alpha
        actual := (lineSearch N cfg S s2).actual
        expected := (lineSearch N cfg S s2).expected
        ratio := (lineSearch N cfg S s2).ratio } (lineSearch N cfg S s2) s2
    cases hw : (lineSearch N cfg S s2).success with
    | true =>
      obtain ⟨a, ha, h⟩ := lineSearch_success hw
      rw [h] at hw
      have hcost : eqb (lineSearch N cfg S s2).expected 0 = false →
          leb (totalCost N (lineSearch N cfg S s2).cand) e.cost = true := by
        intro h'
        rw [he, ← hc]
        rw [h] at h' ⊢
        exact tryAlpha_cost hO ht hw h'
      have hsuc : (lineSearch N cfg S s2).success = true := by rw [h]; exact hw
      simp only [finishStep, hsuc, if_true]
      refine ⟨fun h' => .inr (hcost h'), fun h' => .inr (hcost (h' ?_))⟩
      rw [h]; exact hw
    | false =>
      simp only [finishStep, hw]
      have : totalCost N s2.ctrl = e.cost := by rw [hc, he]
      exact ⟨fun _ => .inl this, fun _ => .inl this⟩

/-- Invariant of the optimisation loop. -/
structure CostInv {m : ℕ → ℕ} (cfg : Config α) (N : ℕ) (c0 : α) (s : Solver n m α) : Prop where
  chain : List.IsChain NoIncrease s.trace
  head : ∃ e, s.trace.head? = some e ∧ e.cost = c0
  bound : (∀ e ∈ s.trace, ltb cfg.costUpdateRatioThre e.ratio = true → eqb e.expected 0 = false) →
    totalCost N s.ctrl = c0 ∨ leb (totalCost N s.ctrl) c0 = true

theorem CostInv.step {m : ℕ → ℕ} {N : ℕ} {S : Stages n m α} (hO : OrdLaws α)
    (ht : leb 0 cfg.costUpdateRatioThre = true) (iter : ℕ) {s : Solver n m α} {c0 : α} (h : CostInv cfg N c0 s)
    (hlast : ∃ e, s.trace.getLast? = some e ∧ e.cost = totalCost N s.ctrl) :
    CostInv cfg N c0 (procOnce L N cfg S iter s).1 := by
  obtain ⟨e, h1, h2⟩ := hlast
  obtain ⟨e', h3, h4, h5⟩ := procOnce_noIncrease (L := L) (S := S) hO ht iter s h2
  refine ⟨?_, ?_, ?_⟩
  · rw [h3, List.isChain_append]
    refine ⟨h.chain, by simp, ?_⟩
    intro x hx y hy
    rw [h1] at hx
    simp at hx hy
    subst hx; subst hy; exact h4
  · obtain ⟨e0, h6, h7⟩ := h.head
    refine ⟨e0, ?_, h7⟩
    rw [h3, List.head?_append, h6]; rfl
  · intro hall
    rw [h3] at hall
    have hb := h.bound (fun e he => hall e (by simp [he]))
    have hs := h5 (hall e' (by simp))
    rw [h2] at hs
    rcases hs with hs | hs
    · rw [hs]; exact hb
    · rcases hb with hb | hb
      · rw [← hb]; exact .inr hs
      · exact .inr (hO.le_trans hs hb)

theorem costInv_final (hO : OrdLaws α) (ht : leb 0 cfg.costUpdateRatioThre = true) :
    CostInv cfg us.length (totalCost us.length (start P lim dt cfg t0 scratch x0 us).ctrl)
      (final L P lim dt cfg t0 scratch x0 us).1 := by
  have h0 : ∃ e, (start P lim dt cfg t0 scratch x0 us).trace.getLast? = some e ∧
      e.cost = totalCost us.length (start P lim dt cfg t0 scratch x0 us).ctrl := ⟨_, rfl, rfl⟩
  have hR : ∀ j s, Reaches L us.length cfg (stagesOf P lim t0 dt us.length) (start P lim dt cfg t0 scratch x0 us) j s →
      CostInv cfg us.length (totalCost us.length (start P lim dt cfg t0 scratch x0 us).ctrl) s := by
    intro j s h
    induction h with
    | start => exact ⟨by simp [initSolver], ⟨_, rfl, rfl⟩, fun _ => .inl rfl⟩
    | @next k s s' h1 h2 ih =>
      have := ih.step (L := L) (S := stagesOf P lim t0 dt us.length) hO ht k (reaches_cost h0 h1)
      rw [h2] at this; exact this
  rcases optLoop_reaches (L := L) (N := us.length) (cfg := cfg) (S := stagesOf P lim t0 dt us.length)
    cfg.maxIter.toNat 1 (Reaches.start (s0 := start P lim dt cfg t0 scratch x0 us)) with
    ⟨_, h1⟩ | ⟨j, s', h1, h2, h3, h4, h5⟩
  · exact hR _ _ h1
  · rw [final, ← h4]
    exact (hR _ _ h3).step hO ht j (reaches_cost h0 h3)

/-- **C13** In the trace, the total cost of an entry is not larger than that of the entry before, unless the
recorded expected update is zero. -/
theorem C13_trace (hO : OrdLaws α) (ht : leb 0 cfg.costUpdateRatioThre = true)
    (hN : (us.length : ℤ) = cfg.horizon) (hd : DimsOk md t0 dt us) (i : ℕ) (e e' : Trace α)
    (he : (solve L P lim dt cfg o t0 scratch x0 us).1.trace[i]? = some e)
    (he' : (solve L P lim dt cfg o t0 scratch x0 us).1.trace[i + 1]? = some e') (hz : eqb e'.expected 0 = false) :
    e'.cost = e.cost ∨ leb e'.cost e.cost = true := by
  rw [solve_valid hN hd] at he he'
  obtain ⟨h1, rfl⟩ := List.getElem?_eq_some_iff.1 he
  obtain ⟨h2, rfl⟩ := List.getElem?_eq_some_iff.1 he'
  exact List.isChain_iff_getElem.1 (costInv_final (L := L) hO ht).chain i h2 hz

/-- **C13** The final total cost is not larger than that of the rollout of the given inputs (whose total cost is
recorded in the first trace entry), provided no step was accepted whose expected update was zero. -/
theorem C13_final (hO : OrdLaws α) (ht : leb 0 cfg.costUpdateRatioThre = true)
    (hN : (us.length : ℤ) = cfg.horizon) (hd : DimsOk md t0 dt us)
    (hz : ∀ e ∈ (solve L P lim dt cfg o t0 scratch x0 us).1.trace,
      ltb cfg.costUpdateRatioThre e.ratio = true → eqb e.expected 0 = false) :
    ∃ d : ControlData n α, IsTrajectory P t0 dt us.length x0 d ∧ d.us = us ∧
      (∃ e, (solve L P lim dt cfg o t0 scratch x0 us).1.trace.head? = some e ∧ e.cost = listSum d.costs) ∧
      (listSum (solve L P lim dt cfg o t0 scratch x0 us).1.control.costs = listSum d.costs ∨
       leb (listSum (solve L P lim dt cfg o t0 scratch x0 us).1.control.costs) (listSum d.costs) = true) := by
  refine ⟨(start P lim dt cfg t0 scratch x0 us).ctrl.out us.length,
    out_isTrajectory (lim := lim) (rollout_consistent _ _), ?_, ?_, ?_⟩
  · show (List.range us.length).map _ = us
    apply List.ext_getElem (by simp)
    intro i h1 h2
    simp only [List.getElem_map]
    have hr : (List.range us.length)[i]'(by simpa using h1) = i := by simp
    generalize (List.range us.length)[i]'(by simpa using h1) = j at hr ⊢
    subst hr
    exact inputAt_eq (m := fun i => md (timeAt t0 dt i)) h2 (by rw [hd _ h2]; rfl)
  · rw [solve_valid hN hd, listSum_out]
    exact (costInv_final (L := L) hO ht).head
  · rw [solve_valid hN hd] at hz ⊢
    dsimp only at hz ⊢
    rw [listSum_out, listSum_out]
    exact (costInv_final (L := L) hO ht).bound hz

end Nmpc.DDP
