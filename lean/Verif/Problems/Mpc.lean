import Verif.DDP.Mpc
import Verif.DDP.Sim
import Verif.FMPC.Sim
import Verif.Problems.Model

/-!
# The receding-horizon tests and simulations (C67-C70)
-/

namespace Nmpc.Problems

open Nmpc.DDP

variable {L : LLT ℝ} {as : List ℝ}

/-- **C67** The test of the bipedal example: 300 steps of 10 ms, 20 s, default configuration with any number of iterations.  The loop
does 2000 rounds without exception or undefined behaviour, for every reference and frequency function. -/
theorem C67_bipedal (p : Bipedal ℝ) (maxIter : ℤ) (o : Obj 2 ℝ) (x0 : Vec 2 ℝ)
    (scr : ℕ → (t : ℝ) → Scratch 2 (fun i => (fun _ : ℝ => 1) (timeAt t (1 / 100) i)) ℝ) :
    ∃ s, mpcLoop L (p.ddp (1 / 100)) none (1 / 100) (fun _ => defaultConfig as maxIter 300) scr (fun _ => shiftRepeat) 20 o 0 x0
        (zeroInputs (fun _ => 1) 0 (1 / 100) 300) = .ok s ∧ s.k = 2000 ∧ ClosedLoop (p.ddp (1 / 100)) (1 / 100) 0 x0 300 s := by
  have h := C67_constant (L := L) (P := p.ddp (1 / 100)) (lim := none) (dt := 1 / 100) (N := 300) (x0 := x0) (o := o) (endT := 20)
    (t0 := 0) (us := zeroInputs (fun _ => 1) 0 (1 / 100) 300) (cfgs := fun _ => defaultConfig as maxIter 300) (scr := scr)
    (by norm_num) (by norm_num) (fun _ _ => rfl) (fun _ => ⟨rfl, by norm_num [defaultConfig], by norm_num [defaultConfig], rfl, by simp [defaultConfig]⟩)
    zeroInputs_ok.1 zeroInputs_ok.2
  have hk : ⌈((20 : ℝ) - 0) / (1 / 100)⌉₊ = 2000 := by
    rw [show ((20 : ℝ) - 0) / (1 / 100) = (2000 : ℕ) by norm_num]; exact Nat.ceil_natCast _
  rwa [hk] at h

/-- **C67** The test of the vertical motion example, with and without input limits: 300 steps of 10 ms, 10 s, `max_iter = 3` from the
second round on; contacts come and go.  The loop does 1000 rounds. -/
theorem C67_vertical (p : Vertical ℝ) (withLimits : Bool) (maxIter : ℤ) (o : Obj 2 ℝ) (x0 : Vec 2 ℝ)
    (scr : ℕ → (t : ℝ) → Scratch 2 (fun i => Vertical.inputDim (timeAt t (1 / 100) i)) ℝ) :
    ∃ s, mpcLoop L (p.ddp (1 / 100)) (some fun _ => (fun _ => 0, fun _ => 30)) (1 / 100)
        (fun k => { defaultConfig as (if k = 0 then maxIter else 3) 300 with
          withConstraint := withLimits, initialLambda := lit (1 / 10 ^ 6) }) scr
        (fun t => shiftDim (Vertical.inputDim (t + lit ((300 : ℕ) : ℚ) * (1 / 100)))) 10 o 0 x0
        (zeroInputs Vertical.inputDim 0 (1 / 100) 300) = .ok s ∧ s.k = 1000 ∧ ClosedLoop (p.ddp (1 / 100)) (1 / 100) 0 x0 300 s := by
  have h := C67_varying (L := L) (P := p.ddp (1 / 100)) (lim := some fun _ => (fun _ => 0, fun _ => 30)) (dt := 1 / 100) (N := 300)
    (x0 := x0) (o := o) (endT := 10) (t0 := 0) (us := zeroInputs Vertical.inputDim 0 (1 / 100) 300)
    (cfgs := fun k => { defaultConfig as (if k = 0 then maxIter else 3) 300 with
          withConstraint := withLimits, initialLambda := lit (1 / 10 ^ 6) }) (scr := scr)
    (by norm_num) (by norm_num) (fun _ => ⟨rfl, by norm_num [defaultConfig], by norm_num [defaultConfig], rfl, fun _ => rfl⟩)
    zeroInputs_ok.1 zeroInputs_ok.2
  have hk : ⌈((10 : ℝ) - 0) / (1 / 100)⌉₊ = 1000 := by
    rw [show ((10 : ℝ) - 0) / (1 / 100) = (1000 : ℕ) by norm_num]; exact Nat.ceil_natCast _
  rwa [hk] at h

/-- **C67** The test of the centroidal motion example: 100 steps of 30 ms, 3 s, for every sequence of stances. -/
theorem C67_centroidal (p : Centroidal ℝ) (maxIter : ℤ) (o : Obj 9 ℝ) (x0 : Vec 9 ℝ)
    (scr : ℕ → (t : ℝ) → Scratch 9 (fun i => p.k (timeAt t (3 / 100) i)) ℝ) :
    ∃ s, mpcLoop L (p.ddp (3 / 100)) none (3 / 100) (fun k => defaultConfig as (if k = 0 then maxIter else 3) 100) scr
        (fun t => shiftDim (p.k (t + lit ((100 : ℕ) : ℚ) * (3 / 100)))) 3 o 0 x0
        (zeroInputs p.k 0 (3 / 100) 100) = .ok s ∧ s.k = 100 ∧ ClosedLoop (p.ddp (3 / 100)) (3 / 100) 0 x0 100 s := by
  have h := C67_varying (L := L) (P := p.ddp (3 / 100)) (lim := none) (dt := 3 / 100) (N := 100)
    (x0 := x0) (o := o) (endT := 3) (t0 := 0) (us := zeroInputs p.k 0 (3 / 100) 100)
    (cfgs := fun k => defaultConfig as (if k = 0 then maxIter else 3) 100) (scr := scr)
    (by norm_num) (by norm_num) (fun _ => ⟨rfl, by norm_num [defaultConfig], by norm_num [defaultConfig], rfl, by simp [defaultConfig]⟩)
    zeroInputs_ok.1 zeroInputs_ok.2
  have hk : ⌈((3 : ℝ) - 0) / (3 / 100)⌉₊ = 100 := by
    rw [show ((3 : ℝ) - 0) / (3 / 100) = (100 : ℕ) by norm_num]; exact Nat.ceil_natCast _
  rwa [hk] at h

/-- **C68** The test of the oscillator example: 400 steps of 10 ms, `max_iter = 3`, simulated for 10 s with 5 ms.  The loop does 2000
rounds; every status is one of the two the test expects. -/
theorem C68_oscillator {L : FMPC.GainSolver ℝ} (o : FMPC.Obj 2 ℝ) (x0 : Vec 2 ℝ) (scr : ℕ → FMPC.Scratch 2 (fun _ => 1) (fun _ => 3) ℝ) :
    ∃ s, FMPC.mpcLoop L (oscillator (1 / 100)) (fun t x u => (oscillator (5 / 1000)).stateEq t x u) (1 / 100) (5 / 1000)
        (FMPC.defaultConfig 400 3) scr 10 o 0 x0 (FMPC.resetVar 2 1 3 400 0 0 0 1 1) = .ok s ∧ s.k = 2000 ∧
      FMPC.ClosedLoop (fun t x u => (oscillator (5 / 1000)).stateEq t x u) (5 / 1000) 0 x0 (1 / 10 ^ 4) s := by
  have h := FMPC.C68_loop (L := L) (P := oscillator (1 / 100)) (plant := fun t x u => (oscillator (5 / 1000)).stateEq t x u)
    (dt := 1 / 100) (simDt := 5 / 1000) (cfg := FMPC.defaultConfig 400 3) (scr := scr) (endT := 10) (o := o) (t0 := 0) (x0 := x0)
    (init := FMPC.resetVar 2 1 3 400 0 0 0 1 1) (by norm_num) (by simp [FMPC.defaultConfig]) (by simp [FMPC.defaultConfig]) rfl
    ⟨fun _ _ _ => by norm_num, by simp [FMPC.defaultConfig]⟩ (FMPC.warmOk_reset 400 0 0 0 1 1) (FMPC.pos_reset 400 0 0 0 one_pos one_pos)
  have hk : ⌈((10 : ℝ) - 0) / (5 / 1000)⌉₊ = 2000 := by
    rw [show ((10 : ℝ) - 0) / (5 / 1000) = (2000 : ℕ) by norm_num]; exact Nat.ceil_natCast _
  rw [hk] at h
  have ht : (FMPC.defaultConfig (α := ℝ) 400 3).kktErrorThre = 1 / 10 ^ 4 := by simp [FMPC.defaultConfig]
  rwa [ht] at h

/-- **C69** The interactive cart-pole simulation of the DDP example with its default parameters: horizon 200 steps of 10 ms,
`max_iter = 3`, limits ±15 N, 10 s simulated with 2 ms, for every sequence of callbacks. -/
theorem C69_cartpole (p : CartPole ℝ) (o : Obj 4 ℝ) (x0 : Vec 4 ℝ) (scr : ℕ → Scratch 4 (fun _ => 1) ℝ) (env : ℕ → List (Callback ℝ)) :
    ∃ s, simLoop (ctrlOf L (fun ref => p.ddp (fun _ => ref) (1 / 100)) (fun _ => (fun _ => -15, fun _ => 15)) (1 / 100)
        { defaultConfig as 3 200 with withConstraint := true } scr) (fun _ x u => p.stateEq (2 / 1000) x u) (2 / 1000) 10 env x0
        (simCtrlInit 1 200 o) = .ok s ∧ s.k = 5000 ∧
      Simulated (fun _ x u => p.stateEq (2 / 1000) x u) (2 / 1000) env (fun _ u => ∀ j, -15 ≤ u j ∧ u j ≤ 15) x0 s := by
  have h := C69_simulation (L := L) (P := fun ref => p.ddp (fun _ => ref) (1 / 100)) (lo := fun _ => -15) (hi := fun _ => 15)
    (dt := 1 / 100) (cfg := { defaultConfig as 3 200 with withConstraint := true }) (scr := scr)
    (plant := fun _ x u => p.stateEq (2 / 1000) x u) (simDt := 2 / 1000) (endT := 10) (env := env) (x0 := x0) (o := o)
    (by norm_num) (by simp [defaultConfig]) (by norm_num [defaultConfig]) (by norm_num [defaultConfig]) rfl (fun _ => by norm_num)
  have hk : ⌈(10 : ℝ) / (2 / 1000)⌉₊ = 5000 := by
    rw [show (10 : ℝ) / (2 / 1000) = (5000 : ℕ) by norm_num]; exact Nat.ceil_natCast _
  rwa [hk] at h

/-- **C70** The interactive cart-pole simulation of the FMPC example with its default parameters: horizon 200 steps of 10 ms,
`max_iter = 5`, 10 s simulated with 2 ms, for every sequence of callbacks. -/
theorem C70_cartpole {L : FMPC.GainSolver ℝ} (p : CartPole ℝ) (o : FMPC.Obj 4 ℝ) (x0 xp : Vec 4 ℝ) (K : Mat 1 4 ℝ)
    (scr : ℕ → FMPC.Scratch 4 (fun _ => 1) (fun _ => 4) ℝ) (env : ℕ → List (Callback ℝ)) :
    ∃ s, simLoop (FMPC.ctrlOf L (fun ref => p.fmpc (fun _ => ref) (1 / 100)) (1 / 100) (FMPC.defaultConfig 200 5) scr)
        (fun _ x u => p.stateEq (2 / 1000) x u) (2 / 1000) 10 env x0 (FMPC.simCtrlInit 1 4 200 K xp o) = .ok s ∧ s.k = 5000 ∧
      Simulated (fun _ x u => p.stateEq (2 / 1000) x u) (2 / 1000) env (fun _ _ => True) x0 s ∧ s.ctrl.var.Pos := by
  have h := FMPC.C70_simulation (L := L) (P := fun ref => p.fmpc (fun _ => ref) (1 / 100))
    (dt := 1 / 100) (cfg := FMPC.defaultConfig 200 5) (scr := scr)
    (plant := fun _ x u => p.stateEq (2 / 1000) x u) (simDt := 2 / 1000) (endT := 10) (env := env) (x0 := x0) (o := o)
    (by norm_num) (by simp [FMPC.defaultConfig]) (by simp [FMPC.defaultConfig])
    ⟨fun _ _ _ => by norm_num, by simp [FMPC.defaultConfig]⟩ K xp
  have hk : ⌈(10 : ℝ) / (2 / 1000)⌉₊ = 5000 := by
    rw [show (10 : ℝ) / (2 / 1000) = (5000 : ℕ) by norm_num]; exact Nat.ceil_natCast _
  rwa [hk] at h

end Nmpc.Problems
