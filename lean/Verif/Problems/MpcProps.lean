import Verif.Problems.Mpc
import Verif.Base.SimProps

/-!
# C105: the callbacks of the two cart-pole simulations
-/

namespace Nmpc.Problems

open DDP

/-- **C105** The DDP cart-pole simulation with its default parameters: for every sequence of callbacks it performs 5000 steps, and
references, calls of the solver, inputs and disturbances are exactly those requested. -/
theorem C105_cartpole_ddp {L : LLT ℝ} {as : List ℝ} (p : CartPole ℝ) (o : Obj 4 ℝ) (x0 : Vec 4 ℝ)
    (scr : ℕ → Scratch 4 (fun _ => 1) ℝ) (env : ℕ → List (Callback ℝ)) :
    ∃ s, simLoop (ctrlOf L (fun ref => p.ddp (fun _ => ref) (1 / 100)) (fun _ => (fun _ => -15, fun _ => 15)) (1 / 100)
        { defaultConfig as 3 200 with withConstraint := true } scr) (fun _ x u => p.stateEq (2 / 1000) x u) (2 / 1000) 10 env x0
        (simCtrlInit 1 200 o) = .ok s ∧ s.k = 5000 ∧
      SimExact (ctrlOf L (fun ref => p.ddp (fun _ => ref) (1 / 100)) (fun _ => (fun _ => -15, fun _ => 15)) (1 / 100)
        { defaultConfig as 3 200 with withConstraint := true } scr) (fun _ x u => p.stateEq (2 / 1000) x u) (2 / 1000) env x0
        (simCtrlInit 1 200 o) s := by
  obtain ⟨s, h1, h2, -⟩ := C69_cartpole (L := L) (as := as) p o x0 scr env
  exact ⟨s, h1, h2, (C105_exact (by norm_num) h1).1⟩

/-- **C105** The same for the FMPC cart-pole simulation. -/
theorem C105_cartpole_fmpc {L : FMPC.GainSolver ℝ} (p : CartPole ℝ) (o : FMPC.Obj 4 ℝ) (x0 xp : Vec 4 ℝ) (K : Mat 1 4 ℝ)
    (scr : ℕ → FMPC.Scratch 4 (fun _ => 1) (fun _ => 4) ℝ) (env : ℕ → List (Callback ℝ)) :
    ∃ s, simLoop (FMPC.ctrlOf L (fun ref => p.fmpc (fun _ => ref) (1 / 100)) (1 / 100) (FMPC.defaultConfig 200 5) scr)
        (fun _ x u => p.stateEq (2 / 1000) x u) (2 / 1000) 10 env x0 (FMPC.simCtrlInit 1 4 200 K xp o) = .ok s ∧ s.k = 5000 ∧
      SimExact (FMPC.ctrlOf L (fun ref => p.fmpc (fun _ => ref) (1 / 100)) (1 / 100) (FMPC.defaultConfig 200 5) scr)
        (fun _ x u => p.stateEq (2 / 1000) x u) (2 / 1000) env x0 (FMPC.simCtrlInit 1 4 200 K xp o) s := by
  obtain ⟨s, h1, h2, -⟩ := C70_cartpole (L := L) p o x0 xp K scr env
  exact ⟨s, h1, h2, (C105_exact (by norm_num) h1).1⟩

end Nmpc.Problems
