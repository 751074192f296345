import Verif.Problems.LQ
import Verif.DDP.BoxKktProps

/-!
# C80 for the vertical motion example, which is solved with limits on the contact force
-/

namespace Nmpc.Problems

open Matrix DDP

/-- The limits of the vertical motion test (TestDDPVerticalMotion.cpp 262-270): every force is between 0 and 30. -/
def Vertical.limits (t : ℝ) : Vec (Vertical.inputDim t) ℝ × Vec (Vertical.inputDim t) ℝ := (fun _ => 0, fun _ => 30)

/-- The configuration of the vertical motion test (TestDDPVerticalMotion.cpp 271-273, 299): limits on and
`initial_lambda = 1e-6`; `max_iter` is 500 in the first period and 3 in the following ones. -/
noncomputable def Vertical.config (as : List ℝ) (maxIter N : ℤ) : Config ℝ :=
  { defaultConfig as maxIter N with withConstraint := true, initialLambda := 1 / 10 ^ 6 }

/-- **C80** In the vertical motion example with limits on the force, for every initial time and state and every horizon, there is exactly
one optimal trajectory within the limits; `solve` started with its inputs returns it, with success, in the first iteration. -/
theorem C80_vertical {L : LLT ℝ} (p : Vertical ℝ) (hL : L.Exact) (hs : p.smooth = false) (h1 : ∀ i, 0 ≤ p.runningX i)
    (h2 : 0 < p.runningU) (h3 : ∀ i, 0 ≤ p.terminalX i) (dt t0 : ℝ) (N : ℕ) (x0 : Vec 2 ℝ) :
    ∃ d, (IsTrajectory (p.ddp dt) t0 dt N x0 d ∧ WithinLimits Vertical.limits t0 dt N d ∧
        LeastWithin (p.ddp dt) Vertical.limits t0 dt N x0 d) ∧
      (∀ d', IsTrajectory (p.ddp dt) t0 dt N x0 d' → WithinLimits Vertical.limits t0 dt N d' →
        LeastWithin (p.ddp dt) Vertical.limits t0 dt N x0 d' → d' = d) ∧
      ∀ (as : List ℝ) (maxIter : ℤ) (o : Obj 2 ℝ) (scratch : Scratch 2 (fun i => Vertical.inputDim (timeAt t0 dt i)) ℝ), 1 ≤ maxIter →
        let r := solve L (p.ddp dt) (some Vertical.limits) dt (Vertical.config as maxIter N) o t0 scratch x0 d.us
        r.2 = .ok true ∧ r.1.control = d ∧ r.1.trace.length = 2 := by
  rw [p.ddp_eq dt hs]
  have hc := Vertical.convex (p := p) dt h1 h2 h3
  obtain ⟨d, ⟨hd, hin, hl⟩, hu⟩ := C80_exists_unique (lim := Vertical.limits) hc (fun t r => by norm_num [Vertical.limits]) t0 dt N x0
  refine ⟨d, ⟨hd, hin, hl⟩, fun d' h4 h5 h6 => hu d' ⟨h4, h5, h6⟩, fun as maxIter o scratch hm => ?_⟩
  have hk := (C80_least_iff hc hd hin).1 hl
  have hlen : d.us.length = N := hd.lenU
  subst hlen
  have hdims : DimsOk (Vertical.inputDim (α := ℝ)) t0 dt d.us := by
    intro i hi
    obtain ⟨x, u, _, hu, _⟩ := hd.step i hi
    rw [List.getElem?_eq_getElem hi] at hu
    rw [Option.some.inj hu]
  have := C80_fixed (L := L) (P := (p.lq dt).callbacks) (lim := Vertical.limits) (cfg := Vertical.config as maxIter d.us.length) (o := o)
    (scratch := scratch) hL rfl rfl
    ⟨fun t _ _ _ => hc.stage t, fun t _ _ _ => hc.input t, fun t _ _ => hc.term t⟩ (by norm_num [Vertical.config, defaultConfig])
    (by norm_num [Vertical.config, defaultConfig]) (by norm_num [Vertical.config, defaultConfig]) hm
    (by norm_num [Vertical.config, defaultConfig]) rfl hdims hd rfl hin hk
  have hlt : (Vertical.config as maxIter d.us.length).initialLambda < (Vertical.config as maxIter d.us.length).lambdaThre := by
    norm_num [Vertical.config, defaultConfig]
  exact ⟨by rw [this.2.1]; simp [hlt], this.1, (this.2.2 hlt).1⟩

/-- The example as shipped. -/
example {L : LLT ℝ} (hL : L.Exact) (refPos : ℝ → ℝ) (t0 : ℝ) : ∃ d, IsTrajectory ((Vertical.default refPos).ddp (1 / 100)) t0 (1 / 100) 300
    ![6 / 5, 0] d ∧ LeastWithin ((Vertical.default refPos).ddp (1 / 100)) Vertical.limits t0 (1 / 100) 300 ![6 / 5, 0] d := by
  obtain ⟨d, h, _⟩ := C80_vertical (Vertical.default refPos) hL rfl (by intro i; fin_cases i <;> norm_num [Vertical.default])
    (by norm_num [Vertical.default]) (by intro i; fin_cases i <;> norm_num [Vertical.default]) (1 / 100) t0 300 ![6 / 5, 0]
  exact ⟨d, h.1, h.2.2⟩

end Nmpc.Problems
