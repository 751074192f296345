import Verif.CGMRES.Sweep
import Mathlib.Algebra.Order.Floor.Ring
import Mathlib.Algebra.Order.Archimedean.Real.Basic

/-!
# The simulation loop of C/GMRES (C54), in exact arithmetic
-/

namespace Nmpc.Cgmres

open Finset Matrix

variable {n m N : ℕ} (L : Gmres.Dense ℝ) (P : Problem n m ℝ) (ode simOde : Ode ℝ) (cfg : Config ℝ)

/-- A sequence of states, inputs and solver members as the loop of `run` should produce it: the state is integrated over `dt` with the
input in force, then the next input is computed from the old and the new state. -/
structure Trajectory (N : ℕ) where
  x : ℕ → Vec n ℝ
  u : ℕ → Vec m ℝ
  mem : ℕ → Mem m N ℝ
  start : setup L P cfg N = .ok (mem 0, u 0)
  x0 : x 0 = P.x0
  plant : ∀ k : ℕ, x (k + 1) = simOde.solve P.stateEq (k * cfg.dt) (x k) (u k) cfg.dt
  control : ∀ k : ℕ, calcControlInput L P ode cfg (k * cfg.dt) (x k) (x (k + 1)) (mem k) = .ok (mem (k + 1), u (k + 1))

variable {L P ode simOde cfg}

/-- The line that is dumped in round `k`: time `k dt`, state and input after the round, norm of the residual before it. -/
noncomputable def Trajectory.line (T : Trajectory L P ode simOde cfg N) (k : ℕ) : Dump n m ℝ :=
  { t := k * cfg.dt, x := T.x (k + 1), u := T.u (k + 1),
    err := Gmres.norm2 (flatten (dhduList P ode cfg (k * cfg.dt) (T.x k) (T.mem k).uList)) }

variable (L P ode simOde cfg) in
theorem trajectory_exists (hN : 0 < N) (hk : 0 ≤ cfg.kMax) : Nonempty (Trajectory L P ode simOde cfg N) := by
  obtain ⟨s, u, hs, -⟩ := C50_setup P eulerOde cfg L euler_zeroStep N
  have step : ∀ (t : ℝ) (x y : Vec n ℝ) (s : Mem m N ℝ), ∃ q, calcControlInput L P ode cfg t x y s = .ok q := by
    intro t x y s
    obtain ⟨r, hr⟩ := (Gmres.C46_total L (gmresConfig cfg.kMax)
      (eqAmul P ode cfg (t + cfg.delta) (xDelta cfg x y) s.uList (dhduList P ode cfg (t + cfg.delta) (xDelta cfg x y) s.uList))
      (eqB cfg (dhduList P ode cfg t x s.uList) (dhduList P ode cfg (t + cfg.delta) (xDelta cfg x y) s.uList)) s.deltaU).2
      (by simpa [gmresConfig] using hk)
    obtain ⟨s', u, h, _⟩ := (C53_update L P ode cfg t x y s).1 r hr hN
    exact ⟨_, h⟩
  choose f hf using step
  let nx : ℕ → Vec n ℝ × Mem m N ℝ × Vec m ℝ → Vec n ℝ := fun k q => simOde.solve P.stateEq (k * cfg.dt) q.1 q.2.2 cfg.dt
  let T : ℕ → Vec n ℝ × Mem m N ℝ × Vec m ℝ := fun k =>
    Nat.rec (P.x0, s, u) (fun k q => (nx k q, f (k * cfg.dt) q.1 (nx k q) q.2.1)) k
  exact ⟨{ x := fun k => (T k).1, u := fun k => (T k).2.2, mem := fun k => (T k).2.1, start := hs, x0 := rfl
           plant := fun k => rfl, control := fun k => hf _ _ _ _ }⟩

theorem Trajectory.dhdu (T : Trajectory L P ode simOde cfg N) (k : ℕ) :
    (T.mem (k + 1)).dhdu = dhduList P ode cfg (k * cfg.dt) (T.x k) (T.mem k).uList := by
  have h := T.control k
  unfold calcControlInput at h
  cases hl : linearSolve L P ode cfg (k * cfg.dt) (T.x k) (T.x (k + 1)) (T.mem k) with
  | ok r =>
    rw [hl] at h
    dsimp only [Res.bind_ok] at h
    split at h
    · injection h with h
      injection h with h1 h2
      rw [← h1]
    · cases h
  | _ => rw [hl] at h; cases h

/-- State of the loop after `k` rounds. -/
noncomputable def Trajectory.sim (T : Trajectory L P ode simOde cfg N) (k : ℕ) : Sim n m N ℝ :=
  { t := k * cfg.dt, i := k, x := T.x k, u := T.u k, mem := T.mem k
    dump := ((List.range k).filter fun j : ℕ => cfg.dumpStep ∣ (j : ℤ)).map T.line }

theorem Trajectory.simStep_eq (T : Trajectory L P ode simOde cfg N) (hd : cfg.dumpStep ≠ 0) (k : ℕ)
    (hk : k * cfg.dt ≤ cfg.simDuration) : simStep L P ode simOde cfg (T.sim k) = .inl (T.sim (k + 1)) := by
  unfold simStep
  rw [if_pos (by rw [leb_real]; exact hk)]
  dsimp only
  have hp : simOde.solve P.stateEq (T.sim k).t (T.sim k).x (T.sim k).u cfg.dt = T.x (k + 1) := (T.plant k).symm
  rw [hp]
  have hc : calcControlInput L P ode cfg (T.sim k).t (T.sim k).x (T.x (k + 1)) (T.sim k).mem = .ok (T.mem (k + 1), T.u (k + 1)) :=
    T.control k
  rw [hc]
  dsimp only
  rw [if_neg hd]
  congr 1
  unfold Trajectory.sim
  dsimp only
  congr 1
  · push_cast; ring
  · rw [List.range_succ, List.filter_append, List.map_append, List.filter_singleton]
    by_cases hj : cfg.dumpStep ∣ (k : ℤ)
    · rw [if_pos (Int.tmod_eq_zero_of_dvd hj)]
      simp only [hj, decide_true, cond_true, List.map_cons, List.map_nil]
      rw [Gmres.vnorm_norm2, T.dhdu]
      rfl
    · rw [if_neg fun h => hj (Int.dvd_of_tmod_eq_zero h)]
      simp [hj]

theorem loopR_inl {σ ρ : Type} {step : σ → σ ⊕ Res ρ} {s s' : σ} (h : step s = .inl s') : loopR step s = loopR step s' := by
  unfold loopR; rw [loopM_inl h]
theorem loopR_inr {σ ρ : Type} {step : σ → σ ⊕ Res ρ} {s : σ} {r : Res ρ} (h : step s = .inr r) : loopR step s = r := by
  unfold loopR; rw [loopM_inr h]

theorem Trajectory.runN_eq (T : Trajectory L P ode simOde cfg N) : runN L P ode simOde cfg N =
    loopR (simStep L P ode simOde cfg) (T.sim 0) := by
  unfold runN
  rw [T.start, Res.bind_ok]
  simp [Trajectory.sim, T.x0]

theorem Trajectory.loop_eq (T : Trajectory L P ode simOde cfg N) (hd : cfg.dumpStep ≠ 0) (k : ℕ)
    (hk : ∀ j < k, (j : ℕ) * cfg.dt ≤ cfg.simDuration) :
    runN L P ode simOde cfg N = loopR (simStep L P ode simOde cfg) (T.sim k) := by
  induction k with
  | zero => exact T.runN_eq
  | succ k ih => rw [ih fun j hj => hk j (by omega), loopR_inl (T.simStep_eq hd k (hk k (by omega)))]

variable (L P ode simOde cfg)

/-- **C54**: with a positive step, a non-zero dump step, at least one stage and a non-negative limit of GMRES rounds, `run` ends after
`⌊sim_duration / dt⌋ + 1` rounds (none for a negative duration); round `k` works with the time `k dt`; the rounds whose number is divisible by
the dump step are dumped, in order, each with its time, the state and input at its end and the residual at its start. -/
theorem C54_run (hdt : 0 < cfg.dt) (hd : cfg.dumpStep ≠ 0) (hN : 0 < cfg.divideNum) (hk : 0 ≤ cfg.kMax) :
    ∃ (T : Trajectory L P ode simOde cfg cfg.divideNum.toNat) (s : _),
      run L P ode simOde cfg = .ok s ∧
      (s.i : ℤ) = max 0 (⌊cfg.simDuration / cfg.dt⌋ + 1) ∧ s.t = s.i * cfg.dt ∧ s.x = T.x s.i ∧ s.u = T.u s.i ∧ s.mem = T.mem s.i ∧
      s.dump = ((List.range s.i).filter fun j : ℕ => cfg.dumpStep ∣ (j : ℤ)).map T.line := by
  obtain ⟨T⟩ := trajectory_exists L P ode simOde cfg (N := cfg.divideNum.toNat) (by omega) hk
  set r : ℕ := (max 0 (⌊cfg.simDuration / cfg.dt⌋ + 1)).toNat with hr
  have hr' : (r : ℤ) = max 0 (⌊cfg.simDuration / cfg.dt⌋ + 1) := by omega
  refine ⟨T, T.sim r, ?_, hr', rfl, rfl, rfl, rfl, rfl⟩
  unfold run
  rw [if_neg (by omega)]
  have h1 : ∀ j < r, (j : ℕ) * cfg.dt ≤ cfg.simDuration := by
    intro j hj
    have : (j : ℤ) ≤ ⌊cfg.simDuration / cfg.dt⌋ := by omega
    rw [Int.le_floor, le_div_iff₀ hdt] at this
    exact_mod_cast this
  rw [T.loop_eq hd r h1]
  apply loopR_inr
  unfold simStep
  rw [if_neg]
  rw [leb_real, not_le]
  change cfg.simDuration < (r : ℕ) * cfg.dt
  have : ⌊cfg.simDuration / cfg.dt⌋ < (r : ℤ) := by omega
  rw [Int.floor_lt, div_lt_iff₀ hdt] at this
  exact_mod_cast this

/-- **C54**, undefined behaviour: with a positive step, `run` is undefined exactly for a negative number of stages, and for a
non-negative duration with dump step 0, no stages, or a negative limit of GMRES rounds; otherwise it returns. -/
theorem C54_undefined (hdt : 0 < cfg.dt) :
    (run L P ode simOde cfg = .ub ↔ cfg.divideNum < 0 ∨
      0 ≤ cfg.simDuration ∧ (cfg.dumpStep = 0 ∨ cfg.divideNum = 0 ∨ cfg.kMax < 0)) ∧
    (run L P ode simOde cfg = .ub ∨ ∃ s, run L P ode simOde cfg = .ok s) := by
  by_cases hneg : cfg.divideNum < 0
  · have : run L P ode simOde cfg = .ub := by unfold run; rw [if_pos hneg]
    exact ⟨⟨fun _ => .inl hneg, fun _ => this⟩, .inl this⟩
  · obtain ⟨s, u, hs, -⟩ := C50_setup P eulerOde cfg L euler_zeroStep cfg.divideNum.toNat
    have hrun : run L P ode simOde cfg = loopR (simStep L P ode simOde cfg)
        { t := 0, i := 0, x := P.x0, u := u, mem := s, dump := [] } := by
      unfold run runN
      rw [if_neg hneg, hs, Res.bind_ok]
    by_cases h0 : 0 ≤ cfg.simDuration
    · by_cases hb : cfg.dumpStep = 0 ∨ cfg.divideNum = 0 ∨ cfg.kMax < 0
      · have : run L P ode simOde cfg = .ub := by
          rw [hrun]
          apply loopR_inr
          unfold simStep
          rw [if_pos (by rw [leb_real]; exact h0)]
          dsimp only
          have hu := (C53_update L P ode cfg 0 P.x0 (simOde.solve P.stateEq 0 P.x0 u cfg.dt) s).2
          split
          · rename_i hc
            rcases hb with hb | hb | hb
            · rw [if_pos hb]
            · exfalso
              rw [hu.mp (.inr (by omega))] at hc
              cases hc
            · exfalso
              rw [hu.mp (.inl hb)] at hc
              cases hc
          · rfl
        exact ⟨⟨fun _ => .inr ⟨h0, hb⟩, fun _ => this⟩, .inl this⟩
      · obtain ⟨_, s, h, _⟩ := C54_run L P ode simOde cfg hdt (by tauto) (by omega) (by omega)
        refine ⟨⟨fun hh => ?_, fun hh => ?_⟩, .inr ⟨s, h⟩⟩
        · rw [hh] at h; cases h
        · tauto
    · have : ∃ s, run L P ode simOde cfg = .ok s := by
        refine ⟨{ t := 0, i := 0, x := P.x0, u := u, mem := s, dump := [] }, hrun.trans (loopR_inr ?_)⟩
        unfold simStep
        rw [if_neg (by rw [leb_real]; exact h0)]
      obtain ⟨s', hs'⟩ := this
      refine ⟨⟨fun hh => ?_, fun hh => ?_⟩, .inr ⟨s', hs'⟩⟩
      · rw [hh] at hs'; cases hs'
      · tauto

/-- **C54**, non-positive step: with a non-negative duration `run` does not end. -/
theorem C54_diverges (hdt : cfg.dt ≤ 0) (h0 : 0 ≤ cfg.simDuration) (hd : cfg.dumpStep ≠ 0) (hN : 0 < cfg.divideNum)
    (hk : 0 ≤ cfg.kMax) : run L P ode simOde cfg = .diverge := by
  obtain ⟨T⟩ := trajectory_exists L P ode simOde cfg (N := cfg.divideNum.toNat) (by omega) hk
  unfold run
  rw [if_neg (by omega), T.runN_eq]
  unfold loopR
  rw [loopM_diverges (fun s => ∃ k, s = T.sim k) ?_ ⟨0, rfl⟩]
  rintro _ ⟨k, rfl⟩
  refine ⟨_, T.simStep_eq hd k ?_, k + 1, rfl⟩
  have : (k : ℝ) * cfg.dt ≤ 0 := mul_nonpos_of_nonneg_of_nonpos (by positivity) hdt
  linarith

end Nmpc.Cgmres
