import Verif.DDP.Reg
import Verif.DDP.Witness

/-!
# When `DDPSolver::solve` returns (C66)
-/

namespace Nmpc.DDP

variable {n : ℕ} {md : ℝ → ℕ} {L : LLT ℝ} {P : Callbacks n md}
  {lim : Option ((t : ℝ) → Vec (md t) ℝ × Vec (md t) ℝ)} {cfg : Config ℝ}
  {dt t0 : ℝ} {o : Obj n ℝ} {x0 : Vec n ℝ} {us : List (Σ k : ℕ, Vec k ℝ)}
  {scratch : Scratch n (fun i => md (timeAt t0 dt i)) ℝ}

/-- **C66** A warm start of `horizon_steps` inputs of the right dimensions, `lambda_factor > 1`, `lambda_min > 0`, no second
derivative of the state equation, and a limit function if limits are requested: `solve` returns `true` or `false`, whatever the
problem, the buffers, the remaining configuration and the factorisations are. -/
theorem C66_defined (hN : (us.length : ℤ) = cfg.horizon) (hd : DimsOk md t0 dt us) (hf : 1 < cfg.lambdaFactor)
    (hm : 0 < cfg.lambdaMin) (h2 : cfg.useSecond = false) (hl : cfg.withConstraint = true → lim.isSome = true) :
    ∃ b, (solve L P lim dt cfg o t0 scratch x0 us).2 = .ok b := by
  have hterm := C15_terminates (L := L) (P := P) (lim := lim) (dt := dt) (cfg := cfg) (o := o) (t0 := t0)
    (scratch := scratch) (x0 := x0) (us := us) hf hm
  rw [solve_valid hN hd] at hterm ⊢
  dsimp only at hterm ⊢
  rcases optLoop_kind (L := L) (N := us.length) (cfg := cfg) (S := stagesOf P lim t0 dt us.length) cfg.maxIter.toNat 1
      (start P lim dt cfg t0 scratch x0 us) with ⟨v, h⟩ | h | ⟨h, hw, hn⟩ | ⟨_, hu⟩
  · exact ⟨_, by rw [show (final L P lim dt cfg t0 scratch x0 us).2 = .ok v from h]; rfl⟩
  · exact absurd (show Res.map _ (final L P lim dt cfg t0 scratch x0 us).2 = .diverge by
      rw [show (final L P lim dt cfg t0 scratch x0 us).2 = .diverge from h]; rfl) hterm
  · have hs := hl hw
    cases lim with
    | none => cases hs
    | some l => cases hn
  · rw [h2] at hu; cases hu

end Nmpc.DDP
