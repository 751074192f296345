import Verif.DDP.Reg
import Verif.DDP.Entries

/-!
# Counting the iterations of `DDPSolver::solve` (exact arithmetic): lemmas for C102
-/

namespace Nmpc.DDP

set_option linter.unusedSectionVars false

variable {n : ℕ} {m : ℕ → ℕ} {L : LLT ℝ} {N : ℕ} {cfg : Config ℝ} {S : Stages n m ℝ}

/-- The backward passes of one iteration do not lower the regularisation. -/
theorem bwSearch_lambda_le (hf : 1 < cfg.lambdaFactor) {s : Solver n m ℝ} (h0 : 0 ≤ s.lambda) :
    s.lambda ≤ (bwSearch L N cfg S s).1.lambda := by
  have hinc : ∀ s' : Solver n m ℝ, s.lambda ≤ s'.lambda → s.lambda ≤ (s'.increase cfg).lambda := by
    intro s' h
    have := increase_lambda (cfg := cfg) s' (h0.trans h)
    have h1 : s'.lambda ≤ cfg.lambdaFactor * s'.lambda := le_mul_of_one_le_left (h0.trans h) hf.le
    linarith
  refine bwSearch_rule (fun s' => s.lambda ≤ s'.lambda) (fun r => s.lambda ≤ r.1.lambda) le_rfl ?_ ?_ ?_ ?_ ?_
  · intro s' b hs _ _
    exact hinc (s'.setBw b) hs
  · intro s' b hs _
    exact hs
  · intro s' b hs _ _
    exact hinc (s'.setBw b) hs
  · intro s' e hs _ _
    exact hs
  · intro _
    exact le_rfl

/-- The regularisation after giving up in the backward passes. -/
theorem bwSearch_giveUp {s s2 : Solver n m ℝ} (h : bwSearch L N cfg S s = (s2, .ok false)) :
    cfg.lambdaMax < s2.lambda := by
  have key : (bwSearch L N cfg S s).2 = .ok false → cfg.lambdaMax < (bwSearch L N cfg S s).1.lambda := by
    refine bwSearch_rule (fun _ => True) (fun r => r.2 = .ok false → cfg.lambdaMax < r.1.lambda) trivial ?_ ?_ ?_ ?_ ?_
    · intros; trivial
    · intro s b _ _ h; cases h
    · intro s b _ _ hl _; simpa using hl
    · intro s e _ he _ h; exact absurd h (he _)
    · intro _ h; cases h
  rw [h] at key
  exact key rfl

/-- An iteration after which the loop goes on: either an accepted step which lowers the cost by at least the threshold,
or a rejected one which increases the regularisation. -/
theorem procOnce_continue (hf : 1 < cfg.lambdaFactor) (hm : 0 < cfg.lambdaMin) {iter : ℕ} {s s' : Solver n m ℝ}
    (h0 : 0 ≤ s.lambda) (hp : 0 < s.dlambda) (h : procOnce L N cfg S iter s = (s', .ok 0)) :
    0 ≤ s'.lambda ∧ 0 < s'.dlambda ∧
    (cfg.costUpdateThre ≤ totalCost N s.ctrl - totalCost N s'.ctrl ∨
     totalCost N s'.ctrl = totalCost N s.ctrl ∧ cfg.lambdaFactor * s.lambda ≤ s'.lambda ∧ cfg.lambdaMin ≤ s'.lambda ∧
       s'.lambda ≤ cfg.lambdaMax) := by
  have hb0 := bwSearch_lambda_le (L := L) (N := N) (S := S) hf (s := startIter N cfg S iter s) h0
  have hb1 : 0 < (bwSearch L N cfg S (startIter N cfg S iter s)).1.dlambda := by
    refine bwSearch_rule (fun s => 0 < s.dlambda) (fun r => 0 < r.1.dlambda) hp ?_ ?_ ?_ ?_ ?_
    · intro s b _ _ _; exact increase_pos hf _
    · intro s b hs _; exact hs
    · intro s b _ _ _; exact increase_pos hf _
    · intro s e hs _ _; exact hs
    · intro _; exact hp
  have hfr := bwSearch_frame (L := L) (N := N) (cfg := cfg) (S := S) (startIter N cfg S iter s)
  have := procOnce_out (L := L) (N := N) (cfg := cfg) (S := S) iter s
  rw [h] at this
  generalize hr : (s', Res.ok (0 : ℤ)) = r at this
  cases this with
  | bwFail s2 hb => simp at hr
  | err s2 e he hb =>
    cases e with
    | ok b => exact absurd rfl (he b)
    | _ => simp [Res.map] at hr
  | small s2 hb hk hl => simp at hr
  | full s2 hb hk =>
    rw [hb] at hb0 hb1 hfr
    dsimp only at hb0 hb1 hfr
    have hl0 : s.lambda ≤ s2.lambda := hb0
    have hc : s2.ctrl = s.ctrl := hfr.1
    have hn2 : 0 ≤ s2.lambda := h0.trans hl0
    have hfin := finishStep_out (N := N) (cfg := cfg) s.trace
      { Trace.new iter with
        kRelNorm := kRelNorm N s2, alpha := (lineSearch N cfg S s2).alpha, actual := (lineSearch N cfg S s2).actual,
        expected := (lineSearch N cfg S s2).expected, ratio := (lineSearch N cfg S s2).ratio } (lineSearch N cfg S s2) s2
    rw [← hr] at hfin
    generalize hr' : (s', Res.ok (0 : ℤ)) = r' at hfin
    cases hfin with
    | accept hw v hv =>
      have hv0 : v = 0 := by simp at hr'; exact hr'.2.symm
      have hs' := congrArg Prod.fst hr'
      dsimp only at hs'
      subst hs'
      rw [hv0] at hv
      have hnot : ¬ (ltb (lineSearch N cfg S s2).actual cfg.costUpdateThre = true) := by
        intro hh; rw [if_pos hh] at hv; exact absurd hv (by norm_num)
      have hge : cfg.costUpdateThre ≤ (lineSearch N cfg S s2).actual := by simpa using hnot
      obtain ⟨a, _, hls⟩ := lineSearch_success hw
      have hact : (lineSearch N cfg S s2).actual = totalCost N s2.ctrl - totalCost N (lineSearch N cfg S s2).cand := by
        rw [hls]; rfl
      have hd := decrease_lambda (cfg := cfg) hf { s2 with ctrl := (lineSearch N cfg S s2).cand } hb1 hn2
      have hdp := decrease_pos (cfg := cfg) hf { s2 with ctrl := (lineSearch N cfg S s2).cand } hb1
      refine ⟨hd.1, hdp, .inl ?_⟩
      rw [← hc]
      have : totalCost N (lineSearch N cfg S s2).cand = totalCost N
        (({ s2 with ctrl := (lineSearch N cfg S s2).cand } : Solver n m ℝ).decrease cfg).ctrl := rfl
      rw [hact] at hge
      exact hge
    | reject hw v hv =>
      have hv0 : v = 0 := by simp at hr'; exact hr'.2.symm
      have hs' := congrArg Prod.fst hr'
      dsimp only at hs'
      subst hs'
      rw [hv0] at hv
      have hnot : ¬ (ltb cfg.lambdaMax (s2.increase cfg).lambda = true) := by
        intro hh; rw [if_pos hh] at hv; exact absurd hv (by norm_num)
      have hinc := increase_lambda (cfg := cfg) s2 hn2
      refine ⟨increase_nonneg hm s2, increase_pos hf s2, .inr ⟨?_, ?_, increase_min s2, by simpa using hnot⟩⟩
      · show totalCost N s2.ctrl = _
        rw [hc]
      · have : cfg.lambdaFactor * s.lambda ≤ cfg.lambdaFactor * s2.lambda :=
          mul_le_mul_of_nonneg_left hl0 (by linarith)
        exact this.trans hinc

/-- Bound of the number of iterations that are followed by another one. -/
theorem reaches_bound (hf : 1 < cfg.lambdaFactor) (hm : 0 < cfg.lambdaMin) {R : ℕ}
    (hR : cfg.lambdaMax < cfg.lambdaMin * cfg.lambdaFactor ^ R) {J : ℝ} {s0 : Solver n m ℝ}
    (hJ : ∀ k s, Reaches L N cfg S s0 k s → J ≤ totalCost N s.ctrl) (h0 : 0 ≤ s0.lambda) (hp : 0 < s0.dlambda)
    {a : ℕ} (ha : totalCost N s0.ctrl < J + (a + 1) * cfg.costUpdateThre) {k : ℕ} {s : Solver n m ℝ}
    (h : Reaches L N cfg S s0 k s) : k ≤ (a + 1) * (R + 2) := by
  -- `b`: accepted steps still possible, `r`: rejected steps still possible before the next accepted one
  have key : 0 ≤ s.lambda ∧ 0 < s.dlambda ∧ ∃ b r : ℕ, r ≤ R + 1 ∧ k + (b * (R + 2) + r) ≤ (a + 1) * (R + 2) ∧
      totalCost N s.ctrl < J + (b + 1) * cfg.costUpdateThre ∧
      (r ≤ R → cfg.lambdaMin ≤ s.lambda ∧ cfg.lambdaMax < s.lambda * cfg.lambdaFactor ^ r) := by
    induction h with
    | start => exact ⟨h0, hp, a, R + 1, le_rfl, by ring_nf; omega, ha, fun h => absurd h (by omega)⟩
    | @next k s s' h1 h2 ih =>
      obtain ⟨hl, hdl, b, r, hrR, hk, hc, hr⟩ := ih
      obtain ⟨hl', hdl', hacc | ⟨hcs, hfl, hmin, hmax⟩⟩ := procOnce_continue hf hm hl hdl h2
      · refine ⟨hl', hdl', ?_⟩
        have hJ' := hJ _ _ (Reaches.next h1 h2)
        cases b with
        | zero =>
          exfalso
          have : totalCost N s.ctrl < J + cfg.costUpdateThre := by simpa using hc
          linarith
        | succ b =>
          refine ⟨b, R + 1, le_rfl, ?_, ?_, fun h => absurd h (by omega)⟩
          · have : (b + 1) * (R + 2) = b * (R + 2) + (R + 2) := by ring
            omega
          · push_cast at hc
            linarith
      · refine ⟨hl', hdl', ?_⟩
        cases r with
        | zero =>
          exfalso
          obtain ⟨h3, h4⟩ := hr (by omega)
          simp only [pow_zero, mul_one] at h4
          have : s.lambda ≤ cfg.lambdaFactor * s.lambda := le_mul_of_one_le_left hl hf.le
          linarith
        | succ r =>
          refine ⟨b, r, by omega, by omega, by rw [hcs]; exact hc, fun _ => ⟨hmin, ?_⟩⟩
          have hpw : 0 ≤ cfg.lambdaFactor ^ r := pow_nonneg (by linarith) r
          by_cases hrR' : r + 1 ≤ R
          · obtain ⟨h3, h4⟩ := hr hrR'
            refine lt_of_lt_of_le h4 ?_
            calc s.lambda * cfg.lambdaFactor ^ (r + 1) = (cfg.lambdaFactor * s.lambda) * cfg.lambdaFactor ^ r := by ring
              _ ≤ _ := mul_le_mul_of_nonneg_right hfl hpw
          · have : r = R := by omega
            subst this
            exact lt_of_lt_of_le hR (mul_le_mul_of_nonneg_right hmin hpw)
  obtain ⟨_, _, b, r, _, hk, _⟩ := key
  omega

theorem reaches_length {s0 s : Solver n m ℝ} (h0 : s0.trace.length = 1) {k : ℕ} (h : Reaches L N cfg S s0 k s) :
    s.trace.length = k := by
  induction h with
  | start => exact h0
  | @next k s s' _ h2 ih =>
    obtain ⟨e, he, _⟩ := procOnce_trace (L := L) (N := N) (cfg := cfg) (S := S) k s
    rw [h2] at he
    dsimp only at he
    rw [he]; simp [ih]

section Trajectory

variable {α : Type} [Add α] [Sub α] [Mul α] [Div α] [Neg α] [Zero α] [One α] [FOps α]
variable {md : α → ℕ} {P : Callbacks n md} {t0 dt : α} {x0 : Vec n α} {d d' : ControlData n α}

/-- A trajectory is determined by its inputs. -/
theorem IsTrajectory.costs_eq (h : IsTrajectory P t0 dt N x0 d) (h' : IsTrajectory P t0 dt N x0 d') (hu : d.us = d'.us) :
    d.costs = d'.costs := by
  have hx : ∀ i, i ≤ N → d.xs[i]? = d'.xs[i]? := by
    intro i
    induction i with
    | zero => intro _; rw [h.start, h'.start]
    | succ i ih =>
      intro hi
      obtain ⟨x, u, h1, h2, h3, _⟩ := h.step i (by omega)
      obtain ⟨x', u', h1', h2', h3', _⟩ := h'.step i (by omega)
      have hxx := ih (by omega)
      rw [h1, h1'] at hxx
      rw [hu, h2'] at h2
      cases hxx
      cases h2
      rw [h3, h3']
  apply List.ext_getElem?
  intro i
  rcases lt_trichotomy i N with hi | rfl | hi
  · obtain ⟨x, u, h1, h2, _, h3⟩ := h.step i hi
    obtain ⟨x', u', h1', h2', _, h3'⟩ := h'.step i hi
    have hxx := hx i hi.le
    rw [h1, h1'] at hxx
    rw [hu, h2'] at h2
    cases hxx
    cases h2
    rw [h3, h3']
  · obtain ⟨x, h1, h2⟩ := h.term
    obtain ⟨x', h1', h2'⟩ := h'.term
    have hxx := hx i le_rfl
    rw [h1, h1'] at hxx
    cases hxx
    rw [h2, h2']
  · rw [List.getElem?_eq_none (by rw [h.lenC]; omega), List.getElem?_eq_none (by rw [h'.lenC]; omega)]

end Trajectory

end Nmpc.DDP
