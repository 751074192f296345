import Verif.CGMRES.OdeProps
import Verif.CGMRES.GmresProps
import Mathlib.Analysis.SpecialFunctions.Exp

/-!
# The forward and backward sweep of C/GMRES (C50, C53, C61), in exact arithmetic where stated
-/

namespace Nmpc.Cgmres

open Finset Matrix

set_option linter.unusedSectionVars false

section Generic
variable {α : Type} [Add α] [Sub α] [Mul α] [Div α] [Neg α] [Zero α] [One α] [FOps α]
variable {n m N : ℕ}

/-! ## C53 -/

/-- **C53** (any arithmetic): segment `i` of the flattened list is column `i`. -/
theorem C53_segment_flatten (U : Fin N → Vec m α) (i : Fin N) : segment (flatten U) i = U i := by
  funext j
  unfold segment flatten
  have hm : 0 < m := Nat.pos_of_ne_zero fun h => by subst h; exact j.elim0
  congr 1
  · apply Fin.ext
    change ((i : ℕ) * m + j) / m = i
    rw [Nat.mul_comm, Nat.mul_add_div hm, Nat.div_eq_of_lt j.2, Nat.add_zero]
  · apply Fin.ext
    change ((i : ℕ) * m + j) % m = j
    rw [Nat.mul_comm, Nat.mul_add_mod, Nat.mod_eq_of_lt j.2]

/-- **C53** (any arithmetic): flattening the segments of a vector gives the vector. -/
theorem C53_flatten_segment (v : Vec (N * m) α) : flatten (segment v) = v := by
  funext k
  unfold segment flatten
  dsimp only
  congr 1
  apply Fin.ext
  change (k : ℕ) / m * m + k % m = k
  rw [Nat.mul_comm, Nat.div_add_mod]

/-- **C53** (any arithmetic): entry `r` of column `c` has the index `c * m + r` in the flattened list. -/
theorem C53_index (U : Fin N → Vec m α) (c : Fin N) (r : Fin m) (h : (c : ℕ) * m + r < N * m) :
    flatten U ⟨c * m + r, h⟩ = U c r := congrFun (C53_segment_flatten U c) r

/-- **C53** (any arithmetic): after `calcControlInput` the input of stage `i` has moved by `dt` times segment `i` of the solution of the
linear equation, and the input of stage 0 is returned; nothing is defined for `horizon_divide_num_ = 0`. -/
theorem C53_update (L : Gmres.Dense α) (P : Problem n m α) (ode : Ode α) (cfg : Config α) (t : α) (x nextX : Vec n α)
    (s : Mem m N α) :
    (∀ r, linearSolve L P ode cfg t x nextX s = .ok r → 0 < N →
      ∃ s' u, calcControlInput L P ode cfg t x nextX s = .ok (s', u) ∧
        (∀ (i : Fin N) (j : Fin m) (h : (i : ℕ) * m + j < N * m), s'.uList i j = s.uList i j + cfg.dt * r.x ⟨i * m + j, h⟩) ∧
        s'.deltaU = r.x ∧ s'.dhdu = dhduList P ode cfg t x s.uList ∧ ∀ h : 0 < N, u = s'.uList ⟨0, h⟩) ∧
    ((cfg.kMax < 0 ∨ N = 0) ↔ calcControlInput L P ode cfg t x nextX s = .ub) := by
  have htot := Gmres.C46_total L (gmresConfig cfg.kMax)
    (eqAmul P ode cfg (t + cfg.delta) (xDelta cfg x nextX) s.uList (dhduList P ode cfg (t + cfg.delta) (xDelta cfg x nextX) s.uList))
    (eqB cfg (dhduList P ode cfg t x s.uList) (dhduList P ode cfg (t + cfg.delta) (xDelta cfg x nextX) s.uList)) s.deltaU
  refine ⟨?_, ?_⟩
  · intro r hr hN
    unfold calcControlInput
    rw [hr]
    dsimp only [Res.bind_ok]
    rw [dif_pos hN]
    exact ⟨_, _, rfl, fun i j h => rfl, rfl, rfl, fun h => rfl⟩
  · constructor
    · rintro (h | h)
      · have : linearSolve L P ode cfg t x nextX s = .ub := htot.1 h
        unfold calcControlInput
        rw [this]; rfl
      · unfold calcControlInput
        by_cases hk : cfg.kMax < 0
        · have : linearSolve L P ode cfg t x nextX s = .ub := htot.1 hk
          rw [this]; rfl
        · obtain ⟨r, hr⟩ := htot.2 (by simpa [gmresConfig] using hk)
          have : linearSolve L P ode cfg t x nextX s = .ok r := hr
          rw [this]
          dsimp only [Res.bind_ok]
          rw [dif_neg (by omega)]
    · intro h
      by_contra hc
      have hk : ¬ cfg.kMax < 0 := fun hh => hc (.inl hh)
      have hN : 0 < N := Nat.pos_of_ne_zero fun hh => hc (.inr hh)
      obtain ⟨r, hr⟩ := htot.2 (by simpa [gmresConfig] using hk)
      have : linearSolve L P ode cfg t x nextX s = .ok r := hr
      unfold calcControlInput at h
      rw [this] at h
      dsimp only [Res.bind_ok] at h
      rw [dif_pos hN] at h
      cases h

/-! ## The backward loop -/

/-- After the backward loop, for any arithmetic. -/
theorem forDown_D (P : Problem n m α) (ode : Ode α) (h : α) (xs : ℕ → Vec n α) (U : Fin N → Vec m α)
    (T : ℕ → α) (lam : ℕ → Vec n α) (hT : ∀ i < N, T i = T (i + 1) - h)
    (hl : ∀ i < N, lam i = ode.solve P.costateEq (T (i + 1)) (lam (i + 1)) (Fin.append (xs i) (colAt U i)) (-h))
    (D0 : ℕ → Vec m α) :
    let q := forDown N (backBody P ode h xs U) { tau := T N, lmd := lam N, D := D0 }
    q.tau = T 0 ∧ q.lmd = lam 0 ∧ ∀ i < N, q.D i = P.dhdu (T i) (xs i) (colAt U i) (lam (i + 1)) := by
  have := forDown_invariant (n := N) (body := backBody P ode h xs U) (s := { tau := T N, lmd := lam N, D := D0 })
    (fun k q => q.tau = T k ∧ q.lmd = lam k ∧ ∀ i < N, k ≤ i → q.D i = P.dhdu (T i) (xs i) (colAt U i) (lam (i + 1)))
    ⟨rfl, rfl, fun i h1 h2 => by omega⟩ (by
      rintro k q hk ⟨h1, h2, h3⟩
      refine ⟨?_, ?_, ?_⟩
      · simp only [backBody]; rw [h1, hT k hk]
      · simp only [backBody]; rw [h1, h2, hl k hk]
      · intro i hi hki
        simp only [backBody]
        by_cases hik : i = k
        · subst hik; rw [Function.update_self, h1, h2, hT i hi]
        · rw [Function.update_of_ne hik]; exact h3 i hi (by omega))
  exact ⟨this.1, this.2.1, fun i hi => this.2.2 i hi (Nat.zero_le _)⟩

end Generic

section Real
variable {n m N : ℕ} (P : Problem n m ℝ) (ode : Ode ℝ) (cfg : Config ℝ)

/-- States predicted over the horizon. -/
def states (h t : ℝ) (x : Vec n ℝ) (U : Fin N → Vec m ℝ) (i : ℕ) : Vec n ℝ := (forwardAt P ode h t x U i).2

theorem forwardAt_time (h t : ℝ) (x : Vec n ℝ) (U : Fin N → Vec m ℝ) (i : ℕ) :
    (forwardAt P ode h t x U i).1 = t + i * h := by
  induction i with
  | zero => simp [forwardAt]
  | succ i ih => simp only [forwardAt]; rw [ih]; push_cast; ring

theorem states_zero (h t : ℝ) (x : Vec n ℝ) (U : Fin N → Vec m ℝ) : states P ode h t x U 0 = x := rfl

theorem states_succ (h t : ℝ) (x : Vec n ℝ) (U : Fin N → Vec m ℝ) (i : ℕ) :
    states P ode h t x U (i + 1) = ode.solve P.stateEq (t + i * h) (states P ode h t x U i) (colAt U i) h := by
  simp only [states, forwardAt]; rw [forwardAt_time]

/-- Costates, counted from the end of the horizon. -/
def lamB (h t : ℝ) (x : Vec n ℝ) (U : Fin N → Vec m ℝ) : ℕ → Vec n ℝ
  | 0 => P.dphidx (t + N * h) (states P ode h t x U N)
  | k + 1 => ode.solve P.costateEq (t + (N - k : ℕ) * h) (lamB h t x U k)
      (Fin.append (states P ode h t x U (N - (k + 1))) (colAt U (N - (k + 1)))) (-h)

/-- The costate of stage `i`. -/
def costates (h t : ℝ) (x : Vec n ℝ) (U : Fin N → Vec m ℝ) (i : ℕ) : Vec n ℝ := lamB P ode h t x U (N - i)

theorem costates_last (h t : ℝ) (x : Vec n ℝ) (U : Fin N → Vec m ℝ) :
    costates P ode h t x U N = P.dphidx (t + N * h) (states P ode h t x U N) := by
  simp [costates, lamB]

theorem costates_step (h t : ℝ) (x : Vec n ℝ) (U : Fin N → Vec m ℝ) {i : ℕ} (hi : i < N) :
    costates P ode h t x U i = ode.solve P.costateEq (t + (i + 1 : ℕ) * h) (costates P ode h t x U (i + 1))
      (Fin.append (states P ode h t x U i) (colAt U i)) (-h) := by
  unfold costates
  obtain ⟨k, hk⟩ : ∃ k, N - i = k + 1 := ⟨N - i - 1, by omega⟩
  rw [hk, lamB]
  have e1 : N - k = i + 1 := by omega
  have e2 : N - (k + 1) = i := by omega
  have e3 : N - (i + 1) = k := by omega
  rw [e1, e2, e3]

theorem dhduList_eq (t : ℝ) (x : Vec n ℝ) (U : Fin N → Vec m ℝ) (i : Fin N) :
    dhduList P ode cfg t x U i = P.dhdu (t + (i : ℕ) * horizonStep cfg N t) (states P ode (horizonStep cfg N t) t x U i) (U i)
      (costates P ode (horizonStep cfg N t) t x U (i + 1)) := by
  unfold dhduList dhduLoop
  set h := horizonStep cfg N t
  have := forDown_D P ode h (states P ode h t x U) U (fun i => t + (i : ℕ) * h) (costates P ode h t x U)
    (fun i _ => by push_cast; ring) (fun i hi => costates_step P ode h t x U hi) (fun _ _ => 0)
  dsimp only at this
  rw [costates_last] at this
  dsimp only
  rw [forwardAt_time]
  have h2 := this.2.2 i i.2
  have hc : colAt U i = U i := by simp [colAt]
  rw [hc] at h2
  exact h2

/-- **C61.**  `calcDhDuList` computes the discretised optimality conditions with the step `h = T(t) / N` of the current horizon `T(t)`:
states `x_{i+1}` from `x_i` by the integrator at time `t + i h`, the terminal costate `∂φ/∂x` at `t + N h`, costates `λ_i` from `λ_{i+1}`
by the integrator with step `-h` applied to the costate equation at time `t + (i+1) h` with the state and input of stage `i`, and
entry `i` of the list is `∂H/∂u (t + i h, x_i, u_i, λ_{i+1})`. -/
theorem C61_sweep (t : ℝ) (x : Vec n ℝ) (U : Fin N → Vec m ℝ) :
    ∃ (h : ℝ) (xs lam : ℕ → Vec n ℝ), h = cfg.steadyHorizon * (1 - Real.exp (-(cfg.increaseRatio * t))) / N ∧
      xs 0 = x ∧ (∀ i : Fin N, xs (i + 1) = ode.solve P.stateEq (t + (i : ℕ) * h) (xs i) (U i) h) ∧
      lam N = P.dphidx (t + N * h) (xs N) ∧
      (∀ i : Fin N, lam i = ode.solve P.costateEq (t + ((i : ℕ) + 1) * h) (lam (i + 1)) (Fin.append (xs i) (U i)) (-h)) ∧
      ∀ i : Fin N, dhduList P ode cfg t x U i = P.dhdu (t + (i : ℕ) * h) (xs i) (U i) (lam (i + 1)) := by
  have hc : ∀ i : Fin N, colAt U i = U i := fun i => by simp [colAt]
  refine ⟨horizonStep cfg N t, states P ode _ t x U, costates P ode _ t x U, ?_, rfl, ?_, costates_last _ _ _ _ _ _, ?_,
    dhduList_eq P ode cfg t x U⟩
  · simp [horizonStep, horizonDuration, neg_mul]
  · intro i; rw [states_succ, hc]
  · intro i
    have := costates_step P ode (horizonStep cfg N t) t x U i.2
    rw [hc] at this
    push_cast at this
    exact this

/-! ## C50 -/

/-- **C50**, horizon: it is zero at time zero, strictly increasing and below the steady duration. -/
theorem C50_horizon (hT : 0 < cfg.steadyHorizon) (ha : 0 < cfg.increaseRatio) :
    horizonDuration cfg 0 = 0 ∧ StrictMono (horizonDuration cfg) ∧ ∀ t, horizonDuration cfg t < cfg.steadyHorizon := by
  unfold horizonDuration
  simp only [exp_real]
  refine ⟨by simp, ?_, ?_⟩
  · intro a b hab
    have : Real.exp (-cfg.increaseRatio * b) < Real.exp (-cfg.increaseRatio * a) := by
      apply Real.exp_lt_exp.mpr
      nlinarith
    exact mul_lt_mul_of_pos_left (by linarith) hT
  · intro t
    have := Real.exp_pos (-cfg.increaseRatio * t)
    nlinarith

/-- An integrator for which a step of length zero does nothing. -/
def Ode.ZeroStep (ode : Ode ℝ) : Prop :=
  ∀ {n m : ℕ} (f : StateEq n m ℝ) (t : ℝ) (x : Vec n ℝ) (u : Vec m ℝ), ode.solve f t x u 0 = x

theorem euler_zeroStep : (eulerOde : Ode ℝ).ZeroStep := fun f t x u => (C44_zero f t x u).1
theorem rk_zeroStep : (rkOde : Ode ℝ).ZeroStep := fun f t x u => (C44_zero f t x u).2

/-- **C50**, consistency: at time zero all predicted states equal the given state, all costates are `∂φ/∂x` there, and every column of the
list is `∂H/∂u` at that state with the input of its stage. -/
theorem C50_initial (ho : ode.ZeroStep) (x : Vec n ℝ) (U : Fin N → Vec m ℝ) :
    (∀ i, states P ode (horizonStep cfg N 0) 0 x U i = x) ∧
    ∀ i, dhduList P ode cfg 0 x U i = P.dhdu 0 x (U i) (P.dphidx 0 x) := by
  have hh : horizonStep cfg N 0 = 0 := by simp [horizonStep, horizonDuration]
  rw [hh]
  have hs : ∀ i, states P ode 0 0 x U i = x := by
    intro i
    induction i with
    | zero => rfl
    | succ i ih => rw [states_succ, ho, ih]
  have hl : ∀ k, lamB P ode 0 0 x U k = P.dphidx 0 x := by
    intro k
    induction k with
    | zero => simp [lamB, hs]
    | succ k ih => rw [lamB, neg_zero, ho, ih]
  refine ⟨hs, fun i => ?_⟩
  rw [dhduList_eq, hh, hs]
  unfold costates
  rw [hl]
  simp

/-- What is known about the loop of `setup`. -/
theorem setupLoop_spec (L : Gmres.Dense ℝ) (lmd : Vec n ℝ) (r : ℕ) (s : SetupState m ℝ)
    (hs : s.dhdu = P.dhdu 0 P.x0 s.u lmd ∨ r ≠ 0 ∨ 1 / 10 ^ 6 < Gmres.norm2 s.dhdu) :
    ∃ s', setupLoop L P cfg lmd r s = .ok s' ∧
      (s'.dhdu = P.dhdu 0 P.x0 s'.u lmd ∨ 1 / 10 ^ 6 < Gmres.norm2 s'.dhdu) := by
  induction r generalizing s with
  | zero =>
    refine ⟨s, rfl, ?_⟩
    rcases hs with h | h | h
    · exact .inl h
    · exact absurd rfl h
    · exact .inr h
  | succ r ih =>
    unfold setupLoop
    dsimp only
    split
    · exact ⟨_, rfl, .inl rfl⟩
    · rename_i hn
      obtain ⟨q, hq⟩ := (Gmres.C46_total L (gmresConfig (m : ℤ)) (setupAmul P cfg lmd s.u (P.dhdu 0 P.x0 s.u lmd))
        (fun k => -(P.dhdu 0 P.x0 s.u lmd) k) s.deltaU).2 (by simp [gmresConfig])
      rw [hq]
      dsimp only [Res.bind_ok]
      refine ih _ (.inr (.inr ?_))
      rw [leb_real, not_le, Gmres.vnorm_norm2] at hn
      simpa using hn

/-- **C50**, `setup`: it returns; all stages get the same input `u`; the predicted residual at time zero, at the initial state and with these
inputs, has `∂H/∂u` at the initial point in every column; and this is what is stored, unless the stored columns have a norm
above 1e-6 (the iteration has not converged in 100 rounds, and the stored value is that of the last but one iterate). -/
theorem C50_setup (L : Gmres.Dense ℝ) (ho : ode.ZeroStep) (N : ℕ) :
    ∃ s u, setup L P cfg N = .ok (s, u) ∧ (∀ i, s.uList i = u) ∧ s.deltaU = 0 ∧
      (∀ i, dhduList P ode cfg 0 P.x0 s.uList i = P.dhdu 0 P.x0 u (P.dphidx 0 P.x0)) ∧
      ∀ i, Gmres.norm2 (s.dhdu i) ≤ 1 / 10 ^ 6 → s.dhdu i = dhduList P ode cfg 0 P.x0 s.uList i := by
  obtain ⟨s, hs, h⟩ := setupLoop_spec P cfg L (P.dphidx 0 P.x0) 100
    { u := P.u0, deltaU := fun _ => 0, dhdu := fun _ => 0 } (.inr (.inl (by decide)))
  refine ⟨_, _, by unfold setup; rw [hs]; rfl, fun _ => rfl, rfl, ?_, ?_⟩
  · intro i; rw [(C50_initial P ode cfg ho P.x0 _).2]
  · intro i hi
    rw [(C50_initial P ode cfg ho P.x0 _).2]
    rcases h with h | h
    · exact h
    · exact absurd hi (not_le.mpr h)

end Real
end Nmpc.Cgmres
