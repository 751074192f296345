import Verif.FMPC.Update
import Verif.FMPC.Examples
import Mathlib.Tactic.Ring

/-!
# FMPC: the value of the barrier parameter (C34) and the initial complementary variables (C59)
-/

namespace Nmpc.FMPC

open Finset
open DDP (FDeriv LDeriv VDeriv timeAt)

theorem forUp_add_real (N : ℕ) (f : ℕ → ℝ) : forUp N (fun i a => a + f i) 0 = ∑ i ∈ range N, f i := by
  induction N with
  | zero => rfl
  | succ N ih => rw [forUp, ih, sum_range_succ]

theorem forUp_add_nat (N : ℕ) (f : ℕ → ℕ) : forUp N (fun i a => a + f i) 0 = ∑ i ∈ range N, f i := by
  induction N with
  | zero => rfl
  | succ N ih => rw [forUp, ih, sum_range_succ]

theorem fclamp_max_min (v lo hi : ℝ) (h : lo ≤ hi) : fclamp v lo hi = max lo (min hi v) := by
  unfold fclamp
  simp only [ltb_real]
  split
  · rename_i h1; rw [max_eq_left]; exact (min_le_right _ _).trans h1.le
  · rename_i h1
    split
    · rename_i h2; rw [min_eq_left h2.le, max_eq_right h]
    · rename_i h2; rw [min_eq_right (not_lt.mp h2), max_eq_right (not_lt.mp h1)]

/-- Half of the average complementarity product, kept within [1e-8, 1e6]. -/
noncomputable def barrierOf (N : ℕ) (p : ℕ → ℕ) (s nu : (i : ℕ) → Fin (p i) → ℝ) : ℝ :=
  max (1 / 10 ^ 8) (min (10 ^ 6) ((∑ i ∈ range N, ∑ j, s i j * nu i j) / (2 * ∑ i ∈ range N, (p i : ℝ))))

section Iter
variable {n : ℕ} {m p : ℕ → ℕ} {L : GainSolver ℝ} {N : ℕ} {cfg : Config ℝ} {S : Stages n m p ℝ} {x0 : Vec n ℝ}

theorem updateEps_value {v : Var n m p ℝ} {e : ℝ} (h : updateEps N v = .ok e) : e = barrierOf N p v.s v.nu := by
  unfold updateEps at h
  split at h
  · cases h
  · cases h
    rw [fclamp_max_min _ _ _ (by simp; norm_num), forUp_add_real, forUp_add_nat]
    unfold barrierOf
    simp only [lit_real, dot_real, dotProduct]
    push_cast
    congr 2
    rw [div_mul_eq_div_div, mul_comm, div_right_comm]
    ring

/-- **C34**, value: with `update_barrier_eps` the barrier parameter used in an iteration is half of the average of the
products of slacks and multipliers at the start of the iteration, kept within [1e-8, 1e6]. -/
theorem C34_value (hu : cfg.updateBarrierEps = true) {iter : ℕ} {w w' : Solver n m p ℝ} {st : Status}
    (h : procOnce L N cfg S x0 iter w = .ok (w', st)) : w'.eps = barrierOf N p w.var.s w.var.nu := by
  obtain ⟨e, he, h1, -⟩ := procOnce_frame h
  rcases he with ⟨-, he⟩ | ⟨he, -⟩
  · rw [h1, updateEps_value he]
  · rw [hu] at he; cases he

end Iter

section Solve
variable {n : ℕ} {md pd : ℝ → ℕ} {L : GainSolver ℝ} {P : Callbacks n md pd} {dt : ℝ} {cfg : Config ℝ} {o : Obj n ℝ} {t0 : ℝ}
  {sc : Scratch n (fun i => md (timeAt t0 dt i)) (fun i => pd (timeAt t0 dt i)) ℝ} {x0 : Vec n ℝ} {init : VarL n ℝ}

/-- **C34**, value, for `solve`: when the last iteration did not change the variables (status not
`MaxIterationReached`), the stored barrier parameter is half of the average complementarity product of the returned
variables, kept within [1e-8, 1e6]. -/
theorem C34_returned (hu : cfg.updateBarrierEps = true) (hm : 0 < cfg.maxIter) {o' : Obj n ℝ} {st : Status}
    (h : solve L P dt cfg o t0 sc x0 init = (o', .ok st)) (hst : st ≠ .maxIterationReached) :
    ∃ v : Var n (fun i => md (timeAt t0 dt i)) (fun i => pd (timeAt t0 dt i)) ℝ, o'.var = v.out cfg.horizon.toNat ∧
      o'.eps = barrierOf cfg.horizon.toNat (fun i => pd (timeAt t0 dt i)) v.s v.nu := by
  obtain ⟨v, w, hv, hc, hr, rfl⟩ := solve_ok h
  obtain ⟨st', ho, hst', _⟩ := runSolver_ok hr
  obtain ⟨hl, -, -⟩ := (checkVariable_iff (md := md) (pd := pd) (t0 := t0) (dt := dt) (horizon := cfg.horizon) v).2.2.1 hc
  have hN : cfg.horizon.toNat = v.us.length := by have := hl.2.1; omega
  rw [hN]
  refine ⟨w.var, rfl, ?_⟩
  have hs' : st' ≠ .iterationContinued := by
    intro hs; rw [if_pos hs] at hst'; exact hst hst'
  have hne : st' ≠ .uninitialized := by
    intro hs
    have := (optLoop_trace (by rfl) ho).2.2.1.mp hs
    omega
  dsimp only
  have key : st' ≠ .iterationContinued → st' ≠ .uninitialized →
      w.eps = barrierOf v.us.length (fun i => pd (timeAt t0 dt i)) w.var.s w.var.nu := by
    refine optLoop_rule (fun _ st _ => st = .uninitialized ∨ st = .iterationContinued)
      (fun st w => st ≠ .iterationContinued → st ≠ .uninitialized →
        w.eps = barrierOf v.us.length (fun i => pd (timeAt t0 dt i)) w.var.s w.var.nu) (.inl rfl) ?_ ?_ ho
    · intro it st w w' st' _ _ _ hp
      split
      · rename_i hh; exact .inr hh
      · intro h1 _
        obtain ⟨_, _, _, _, h2, _⟩ := procOnce_frame hp
        rw [h2 h1]
        exact C34_value hu hp
    · rintro st w (rfl | rfl) h1 h2
      · exact absurd rfl h2
      · exact absurd rfl h1
  exact key hs' hne

/-! ## C59: initial complementary variables -/

/-- The slack given to a constraint of value `g`. -/
noncomputable def initSlack (g : ℝ) : ℝ := 101 / 100 * max (-g) (1 / 100)

/-- The multiplier given to a slack `s`. -/
noncomputable def initMult (s : ℝ) : ℝ := 101 / 100 * max (1 / 10 ^ 4 / s) (1 / 100)

theorem initSNu_real {k : ℕ} (g : Vec k ℝ) :
    initSNu g = (fun j => initSlack (g j), fun j => initMult (initSlack (g j))) := by
  have e : ∀ a : ℝ, complInit a = 101 / 100 * max a (1 / 100) := by
    intro a; unfold complInit; simp only [lit_real, fmax_real]; push_cast; norm_num
  unfold initSNu initMult
  simp only [e, initialBarrierEps, lit_real, neg_mul, one_mul]
  push_cast
  simp only [initSlack, div_eq_mul_inv, one_mul]

theorem initCompl_value {k : ℕ} {v v' : VarL n ℝ} (h : initCompl P t0 dt k v = .ok v') :
    ∀ i < k, ∃ x u, v.xs[i]? = some x ∧ v.us[i]? = some ⟨md (timeAt t0 dt i), u⟩ ∧
      v'.ss[i]? = some ⟨_, fun j => initSlack (P.ineqConst (timeAt t0 dt i) x u j)⟩ ∧
      v'.nus[i]? = some ⟨_, fun j => initMult (initSlack (P.ineqConst (timeAt t0 dt i) x u j))⟩ := by
  induction k generalizing v' with
  | zero => intro i hi; omega
  | succ k ih =>
    unfold initCompl at h
    rcases initCompl_cases (P := P) (t0 := t0) (dt := dt) k v with h1 | ⟨v1, h1⟩
    · rw [h1] at h; cases h
    · rw [h1] at h
      obtain ⟨e1, e2, -⟩ := initCompl_length h1
      dsimp only [Res.bind_ok] at h
      split at h
      · rename_i x q u hx hu
        split at h
        · rename_i hlen
          split at h
          · rename_i hk
            subst hk
            cases h
            intro i hi
            by_cases hik : i = k
            · subst hik
              refine ⟨x, u, by rw [← e1]; exact hx, by rw [← e2]; exact hu, ?_, ?_⟩
              · dsimp only
                rw [List.getElem?_set_self hlen.1, initSNu_real]
              · dsimp only
                rw [List.getElem?_set_self hlen.2, initSNu_real]
            · obtain ⟨x', u', a1, a2, a3, a4⟩ := ih h1 i (by omega)
              refine ⟨x', u', a1, a2, ?_, ?_⟩
              · dsimp only; rw [List.getElem?_set_ne (by omega)]; exact a3
              · dsimp only; rw [List.getElem?_set_ne (by omega)]; exact a4
          · cases h
        · cases h
      · cases h

theorem bwLoop_flag {m p : ℕ → ℕ} (c : Bool) (d e : ℝ) (v : Var n m p ℝ) (i : ℕ) (s : Vec n ℝ) (Q : Mat n n ℝ)
    (co : (i : ℕ) → Coeff n (m i) (p i) ℝ) :
    bwLoop L { cfg with initComplementary := c } d e v i s Q co = bwLoop L cfg d e v i s Q co := by
  induction i generalizing s Q co with
  | zero => rfl
  | succ i ih =>
    unfold bwLoop
    have : bwStage L { cfg with initComplementary := c } d e (v.s i) (v.nu i) (co i) s Q =
      bwStage L cfg d e (v.s i) (v.nu i) (co i) s Q := rfl
    rw [this]
    split
    · rfl
    · exact ih _ _ _

theorem procOnce_flag {m p : ℕ → ℕ} {N : ℕ} {S : Stages n m p ℝ} (c : Bool) (iter : ℕ) (w : Solver n m p ℝ) :
    procOnce L N { cfg with initComplementary := c } S x0 iter w = procOnce L N cfg S x0 iter w := by
  have hb : ∀ w1, backwardPass L N { cfg with initComplementary := c } S w1 = backwardPass L N cfg S w1 := by
    intro w1
    unfold backwardPass
    simp only [bwLoop_flag]
  unfold procOnce
  simp only [hb]
  rfl

theorem optLoop_flag {m p : ℕ → ℕ} {N : ℕ} {S : Stages n m p ℝ} (c : Bool) (r iter : ℕ) (st : Status)
    (w : Solver n m p ℝ) :
    optLoop L N { cfg with initComplementary := c } S x0 r iter st w = optLoop L N cfg S x0 r iter st w := by
  induction r generalizing iter st w with
  | zero => rfl
  | succ r ih => unfold optLoop; simp only [procOnce_flag, ih]

theorem runSolver_flag {m p : ℕ → ℕ} {N : ℕ} {S : Stages n m p ℝ} (c : Bool) (w : Solver n m p ℝ) :
    runSolver L N { cfg with initComplementary := c } S x0 w = runSolver L N cfg S x0 w := by
  unfold runSolver; simp only [optLoop_flag]

/-- **C59.**  A call with `init_complementary_variable` that returns a status is the call without this option for the
variables with the states, inputs and costates of the warm start, the slacks `1.01 max(-g, 0.01)` and the multipliers
`1.01 max(1e-4 / s, 0.01)`, where `g` are the values of the inequality constraints at the warm start, with the barrier
parameter 1e-4.  The slacks and multipliers passed in are not used. -/
theorem C59_initial (hi : cfg.initComplementary = true) {o' : Obj n ℝ} {st : Status}
    (h : solve L P dt cfg o t0 sc x0 init = (o', .ok st)) :
    ∃ v : VarL n ℝ, v.xs = init.xs ∧ v.us = init.us ∧ v.lams = init.lams ∧
      v.ss.length = cfg.horizon.toNat ∧ v.nus.length = cfg.horizon.toNat ∧
      (∀ i < cfg.horizon.toNat, ∃ x u, init.xs[i]? = some x ∧ init.us[i]? = some ⟨md (timeAt t0 dt i), u⟩ ∧
        v.ss[i]? = some ⟨pd (timeAt t0 dt i), fun j => initSlack (P.ineqConst (timeAt t0 dt i) x u j)⟩ ∧
        v.nus[i]? = some ⟨pd (timeAt t0 dt i), fun j => initMult (initSlack (P.ineqConst (timeAt t0 dt i) x u j))⟩) ∧
      solve L P dt { cfg with initComplementary := false } { o with eps := 1 / 10 ^ 4 } t0 sc x0 v = (o', .ok st) := by
  obtain ⟨v, w, hv, hc, hr, rfl⟩ := solve_ok h
  obtain ⟨hl, hd, -⟩ := (checkVariable_iff (md := md) (pd := pd) (t0 := t0) (dt := dt) (horizon := cfg.horizon) v).2.2.1 hc
  unfold startVar at hv
  rw [if_pos hi] at hv
  obtain ⟨e1, e2, e3, -⟩ := initCompl_length hv
  refine ⟨v, e1, e2, e3, by have := hl.2.2.2.1; omega, by have := hl.2.2.2.2; omega, initCompl_value hv, ?_⟩
  have he : startEps cfg o = 1 / 10 ^ 4 := by simp [startEps, hi, initialBarrierEps]
  rw [he] at hr
  unfold solve
  simp only [Bool.false_eq_true, if_false, hc, runSolver_flag, hr]

/-- **C59**, consequences: every initial slack exceeds `-g` strictly (so the slack residual `g + s` is positive), slack and
multiplier are at least 0.0101, and their product is at least 1.01 times the barrier parameter 1e-4. -/
theorem C59_bounds (g : ℝ) :
    0 < g + initSlack g ∧ 101 / 10000 ≤ initSlack g ∧ 101 / 10000 ≤ initMult (initSlack g) ∧
    101 / 100 * (1 / 10 ^ 4) ≤ initSlack g * initMult (initSlack g) := by
  have hs : 101 / 10000 ≤ initSlack g := by
    unfold initSlack; have := le_max_right (-g) (1 / 100); linarith
  refine ⟨?_, hs, ?_, ?_⟩
  · unfold initSlack
    rcases le_total (-g) (1 / 100) with h | h
    · rw [max_eq_right h]; linarith
    · rw [max_eq_left h]; linarith
  · unfold initMult; have := le_max_right (1 / 10 ^ 4 / initSlack g) (1 / 100); linarith
  · have h0 : 0 < initSlack g := by linarith
    have h1 : 1 / 10 ^ 4 / initSlack g ≤ max (1 / 10 ^ 4 / initSlack g) (1 / 100) := le_max_left _ _
    rw [div_le_iff₀ h0] at h1
    unfold initMult
    nlinarith

end Solve

/-! ## Concrete instances -/

/-- The default configuration with `init_complementary_variable` on a problem with constraints. -/
example (o : Obj 2 ℝ) (sc : Scratch 2 (fun i => (fun _ : ℝ => 1) (timeAt 0 1 i)) (fun i => (fun _ : ℝ => 2) (timeAt 0 1 i)) ℝ)
    (x0 : Vec 2 ℝ) : ∃ o' st, solve realGain box 1 { exCfg with initComplementary := true } o 0 sc x0 (exInit 2) = (o', .ok st) ∧
      ∃ v : VarL 2 ℝ, v.xs = (exInit 2).xs ∧
        solve realGain box 1 exCfg { o with eps := 1 / 10 ^ 4 } 0 sc x0 v =
          (o', .ok st) := by
  obtain ⟨o1, st, h⟩ := C58_defined (L := realGain) (P := box) (dt := 1) (t0 := 0) (cfg := { exCfg with initComplementary := true })
    (o := o) (sc := sc) (x0 := x0) (exLengths 2) (exDims 2).1 (.inl rfl) ⟨exNoEmpty.1, exNoEmpty.2⟩ (.inl (by decide))
  obtain ⟨v, h1, -, -, -, -, -, h2⟩ := C59_initial rfl h
  exact ⟨o1, st, h, v, h1, h2⟩

/-- One iteration from slacks 1, 2 and multipliers 3, 4: the barrier parameter becomes `(3 + 8) / (2 * 2)`. -/
example : barrierOf 1 (fun _ => 2) (fun _ => ![1, 2]) (fun _ => ![3, 4]) = 11 / 4 := by
  simp [barrierOf, Fin.sum_univ_two]
  norm_num

/-- A violated constraint (`g = 1`) gets the slack 0.0101, an inactive one (`g = -1`) the slack 1.01. -/
example : initSlack 1 = 101 / 10000 ∧ initSlack (-1) = 101 / 100 ∧ initMult (101 / 100) = 101 / 10000 := by
  unfold initSlack initMult
  refine ⟨?_, ?_, ?_⟩ <;> norm_num

end Nmpc.FMPC
