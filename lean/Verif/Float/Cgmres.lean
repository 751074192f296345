import Verif.Float.MpcProps
import Verif.CGMRES.Sim
import Verif.Base.Sim

/-!
# The simulation loop of C/GMRES under rounding (C96)
-/

set_option linter.unusedSectionVars false

namespace Nmpc

variable {α : Type} [Add α] [Sub α] [Mul α] [Div α] [Neg α] [Zero α] [One α] [FOps α] {u : ℝ}

/-- Accumulated times over at most 30000 rounds. -/
theorem acc_float (F : FloatLaws α u) (hu : u ≤ 1 / 2 ^ 45) {q : ℚ} (q0 : 0 < q) (q1 : q ≤ 1 / 10) {k : ℕ}
    (hk : k ≤ 30000) (hkq : k * q ≤ 30) : F.Within (3 / 10 ^ 8) (k * q) (acc 0 (lit q : α) k) := by
  have u0 := F.u_nonneg
  have q0' : (0 : ℝ) < q := by exact_mod_cast q0
  have q1' : (q : ℝ) ≤ 1 / 10 := by
    have : ((q : ℚ) : ℝ) ≤ ((1 / 10 : ℚ) : ℝ) := by exact_mod_cast q1
    simpa using this
  have hk' : (k : ℝ) ≤ 30000 := by exact_mod_cast hk
  have hkq' : (k : ℝ) * q ≤ 30 := by exact_mod_cast hkq
  have hu2 : u ≤ 3 / 10 ^ 14 := hu.trans (by norm_num)
  have hq : F.Within (u * q) q (lit q : α) := by
    have := F.within_lit q
    rwa [abs_of_pos q0'] at this
  have uq : u * q ≤ 1 := by nlinarith
  have hacc : F.Within (k * (1 / 10 ^ 12)) (k * q) (acc 0 (lit q : α) k) := by
    refine FloatLaws.acc_within hq q0'.le (by norm_num) (K := k) ?_ le_rfl
    have : u * (k * (q + 1 / 10 ^ 12) + u * q) ≤ 3 / 10 ^ 14 * (31 + 1) := by
      refine mul_le_mul hu2 ?_ (by positivity) (by norm_num)
      nlinarith
    have : u * q ≤ 3 / 10 ^ 14 * (1 / 10) := mul_le_mul hu2 q1' q0'.le (by norm_num)
    linarith
  exact hacc.mono (by linarith)

namespace Cgmres

variable {n m N : ℕ} {L : Gmres.Dense α} {P : Problem n m α} {ode simOde : Ode α} {cfg : Config α}

/-- Sequences of states, inputs and solver members as the loop of `run` should produce them, at the accumulated times: the state is
integrated over `dt` with the input in force, then the next input is computed from the old and the new state. -/
structure Traj (L : Gmres.Dense α) (P : Problem n m α) (ode simOde : Ode α) (cfg : Config α) (N : ℕ) where
  x : ℕ → Vec n α
  u : ℕ → Vec m α
  mem : ℕ → Mem m N α
  start : setup L P cfg N = .ok (mem 0, u 0)
  x0 : x 0 = P.x0
  plant : ∀ k : ℕ, x (k + 1) = simOde.solve P.stateEq (acc 0 cfg.dt k) (x k) (u k) cfg.dt
  control : ∀ k : ℕ, calcControlInput L P ode cfg (acc 0 cfg.dt k) (x k) (x (k + 1)) (mem k) = .ok (mem (k + 1), u (k + 1))

theorem setupLoop_returns (L : Gmres.Dense α) (P : Problem n m α) (cfg : Config α) (lmd : Vec n α) :
    ∀ (r : ℕ) (s : SetupState m α), ∃ s', setupLoop L P cfg lmd r s = .ok s'
  | 0, s => ⟨s, rfl⟩
  | r + 1, s => by
    unfold setupLoop
    dsimp only
    split
    · exact ⟨_, rfl⟩
    · obtain ⟨q, hq⟩ := (Gmres.C46_total L (gmresConfig (m : ℤ)) (setupAmul P cfg lmd s.u (P.dhdu 0 P.x0 s.u lmd))
        (fun k => -P.dhdu 0 P.x0 s.u lmd k) s.deltaU).2 (by simp [gmresConfig])
      rw [hq, Res.bind_ok]
      exact setupLoop_returns L P cfg lmd r _

variable (L P ode simOde cfg) in
theorem traj_exists (hN : 0 < N) (hk : 0 ≤ cfg.kMax) : Nonempty (Traj L P ode simOde cfg N) := by
  obtain ⟨s0, hs0⟩ := setupLoop_returns L P cfg (P.dphidx 0 P.x0) 100 { u := P.u0, deltaU := fun _ => 0, dhdu := fun _ => 0 }
  obtain ⟨q0, hs⟩ : ∃ q, setup L P cfg N = .ok q := ⟨_, by unfold setup; rw [hs0]; rfl⟩
  have step : ∀ (t : α) (x y : Vec n α) (s : Mem m N α), ∃ q, calcControlInput L P ode cfg t x y s = .ok q := by
    intro t x y s
    obtain ⟨r, hr⟩ := (Gmres.C46_total L (gmresConfig cfg.kMax)
      (eqAmul P ode cfg (t + cfg.delta) (xDelta cfg x y) s.uList (dhduList P ode cfg (t + cfg.delta) (xDelta cfg x y) s.uList))
      (eqB cfg (dhduList P ode cfg t x s.uList) (dhduList P ode cfg (t + cfg.delta) (xDelta cfg x y) s.uList)) s.deltaU).2
      (by simpa [gmresConfig] using hk)
    obtain ⟨s', u, h, _⟩ := (C53_update L P ode cfg t x y s).1 r hr hN
    exact ⟨_, h⟩
  choose f hf using step
  let nx : ℕ → Vec n α × Mem m N α × Vec m α → Vec n α := fun k q => simOde.solve P.stateEq (acc 0 cfg.dt k) q.1 q.2.2 cfg.dt
  let T : ℕ → Vec n α × Mem m N α × Vec m α := fun k =>
    Nat.rec (P.x0, q0.1, q0.2) (fun k q => (nx k q, f (acc 0 cfg.dt k) q.1 (nx k q) q.2.1)) k
  exact ⟨{ x := fun k => (T k).1, u := fun k => (T k).2.2, mem := fun k => (T k).2.1, start := hs, x0 := rfl
           plant := fun k => rfl, control := fun k => hf _ _ _ _ }⟩

theorem Traj.dhdu (T : Traj L P ode simOde cfg N) (k : ℕ) :
    (T.mem (k + 1)).dhdu = dhduList P ode cfg (acc 0 cfg.dt k) (T.x k) (T.mem k).uList := by
  have h := T.control k
  unfold calcControlInput at h
  cases hl : linearSolve L P ode cfg (acc 0 cfg.dt k) (T.x k) (T.x (k + 1)) (T.mem k) with
  | ok r =>
    rw [hl] at h
    dsimp only [Res.bind_ok] at h
    split at h
    · injection h with h
      injection h with h1 h2
      rw [← h1]
    · cases h
  | _ => rw [hl] at h; cases h

/-- The line that is dumped in round `k`: the accumulated time, state and input after the round, norm of the residual before it. -/
def Traj.line (T : Traj L P ode simOde cfg N) (k : ℕ) : Dump n m α :=
  { t := acc 0 cfg.dt k, x := T.x (k + 1), u := T.u (k + 1),
    err := vnorm (flatten (dhduList P ode cfg (acc 0 cfg.dt k) (T.x k) (T.mem k).uList)) }

/-- State of the loop after `k` rounds. -/
def Traj.sim (T : Traj L P ode simOde cfg N) (k : ℕ) : Sim n m N α :=
  { t := acc 0 cfg.dt k, i := k, x := T.x k, u := T.u k, mem := T.mem k
    dump := ((List.range k).filter fun j : ℕ => cfg.dumpStep ∣ (j : ℤ)).map T.line }

theorem Traj.simStep_eq (T : Traj L P ode simOde cfg N) (hd : cfg.dumpStep ≠ 0) (k : ℕ)
    (hk : leb (acc 0 cfg.dt k) cfg.simDuration = true) : simStep L P ode simOde cfg (T.sim k) = .inl (T.sim (k + 1)) := by
  unfold simStep
  rw [if_pos (show leb (T.sim k).t cfg.simDuration = true from hk)]
  dsimp only
  have hp : simOde.solve P.stateEq (T.sim k).t (T.sim k).x (T.sim k).u cfg.dt = T.x (k + 1) := (T.plant k).symm
  rw [hp]
  have hc : calcControlInput L P ode cfg (T.sim k).t (T.sim k).x (T.x (k + 1)) (T.sim k).mem = .ok (T.mem (k + 1), T.u (k + 1)) :=
    T.control k
  rw [hc]
  dsimp only
  rw [if_neg hd]
  congr 1
  unfold Traj.sim
  dsimp only
  congr 1
  · rw [acc_succ]
  · rw [List.range_succ, List.filter_append, List.map_append, List.filter_singleton]
    by_cases hj : cfg.dumpStep ∣ (k : ℤ)
    · rw [if_pos (Int.tmod_eq_zero_of_dvd hj)]
      simp only [hj, decide_true, cond_true, List.map_cons, List.map_nil]
      rw [T.dhdu]
      rfl
    · rw [if_neg fun h => hj (Int.dvd_of_tmod_eq_zero h)]
      simp [hj]

variable (L P ode simOde cfg)

/-- **C96**, C/GMRES in any arithmetic: with a non-zero dump step, at least one stage and a non-negative limit of GMRES rounds, `run`
returns after as many rounds as it takes until the accumulated time exceeds `sim_duration`. -/
theorem C96_run {M : ℕ} (hlt : ∀ k < M, leb (acc 0 cfg.dt k) cfg.simDuration = true)
    (hM : leb (acc 0 cfg.dt M) cfg.simDuration = false) (hd : cfg.dumpStep ≠ 0) (hN : 0 < cfg.divideNum) (hk : 0 ≤ cfg.kMax) :
    ∃ (T : Traj L P ode simOde cfg cfg.divideNum.toNat) (s : _),
      run L P ode simOde cfg = .ok s ∧ s.i = M ∧ s.t = acc 0 cfg.dt M ∧ s.x = T.x M ∧ s.u = T.u M ∧ s.mem = T.mem M ∧
      s.dump = ((List.range M).filter fun j : ℕ => cfg.dumpStep ∣ (j : ℤ)).map T.line := by
  obtain ⟨T⟩ := traj_exists L P ode simOde cfg (N := cfg.divideNum.toNat) (by omega) hk
  refine ⟨T, T.sim M, ?_, rfl, rfl, rfl, rfl, rfl, rfl⟩
  have h0 : run L P ode simOde cfg = loopR (simStep L P ode simOde cfg) (T.sim 0) := by
    unfold run runN
    rw [if_neg (by omega), T.start, Res.bind_ok]
    simp [Traj.sim, T.x0, acc_zero]
  have h1 : ∀ k ≤ M, run L P ode simOde cfg = loopR (simStep L P ode simOde cfg) (T.sim k) := by
    intro k hk
    induction k with
    | zero => exact h0
    | succ k ih => rw [ih (by omega), loopR_inl (T.simStep_eq hd k (hlt k (by omega)))]
  rw [h1 M le_rfl]
  apply loopR_inr
  unfold simStep
  rw [if_neg]
  change ¬ leb (acc 0 cfg.dt M) cfg.simDuration = true
  rw [hM]
  simp

end Cgmres

end Nmpc
