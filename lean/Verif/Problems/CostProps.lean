import Verif.Problems.Deriv
import Verif.DDP.ComplexityProps

/-!
# C104: the costs of the DDP and fast MPC example problems: zero exactly at the reference, bounded below
-/

namespace Nmpc.Problems

open DDP

/-- Weighted squares with positive weights. -/
theorem dot_abs2_nonneg {n : ℕ} {w v : Vec n ℝ} (hw : ∀ i, 0 ≤ w i) : 0 ≤ w ⬝ᵥ abs2 v :=
  Finset.sum_nonneg fun i _ => mul_nonneg (hw i) (mul_self_nonneg (v i))

theorem dot_abs2_eq_zero {n : ℕ} {w v : Vec n ℝ} (hw : ∀ i, 0 < w i) : w ⬝ᵥ abs2 v = 0 ↔ v = 0 := by
  constructor
  · intro h
    have := (Finset.sum_eq_zero_iff_of_nonneg fun i _ => mul_nonneg (hw i).le (mul_self_nonneg (v i))).1 h
    funext i
    have h1 := this i (Finset.mem_univ i)
    have h2 := (mul_eq_zero.1 h1).resolve_left (hw i).ne'
    exact mul_self_eq_zero.1 h2
  · rintro rfl
    simp [dotProduct, abs2]

theorem sqNorm_nonneg' {n : ℕ} (v : Vec n ℝ) : 0 ≤ sqNorm v := by
  simp only [sqNorm, dot_real]
  exact Finset.sum_nonneg fun i _ => mul_self_nonneg (v i)

theorem sqNorm_eq_zero' {n : ℕ} {v : Vec n ℝ} : sqNorm v = 0 ↔ v = 0 := by
  simp only [sqNorm, dot_real]
  exact dotProduct_self_eq_zero

theorem smoothAbs_eq_zero {n : ℕ} {v : Vec n ℝ} : smoothAbs v = 0 ↔ v = 0 := by
  constructor
  · intro h
    funext i
    have hi := congrFun h i
    simp only [smoothAbs, lit_real, sqrt_real, Pi.zero_apply] at hi
    have h1 : √(v i * v i + 1) = 1 := by push_cast at hi; rw [one_mul] at hi; linarith
    rw [Real.sqrt_eq_one] at h1
    exact mul_self_eq_zero.1 (by linarith)
  · rintro rfl
    funext i
    simp [smoothAbs]

/-! ## Cart-pole -/

/-- **C104** Cart-pole, positive weights: the running cost is non-negative and zero exactly for a cart at the reference
position with the pole upright, everything at rest and no force; the same for the terminal cost. -/
theorem C104_cartpole (p : CartPole ℝ) (hx : ∀ i, 0 < p.runningX i) (hu : ∀ i, 0 < p.runningU i)
    (ht : ∀ i, 0 < p.terminalX i) (refPos : ℝ → ℝ) (dt t : ℝ) (x : Vec 4 ℝ) (u : Vec 1 ℝ) :
    (0 ≤ (p.ddp refPos dt).runningCost t x u ∧
      ((p.ddp refPos dt).runningCost t x u = 0 ↔ x 0 = refPos t ∧ x 1 = 0 ∧ x 2 = 0 ∧ x 3 = 0 ∧ u 0 = 0)) ∧
    (0 ≤ (p.ddp refPos dt).terminalCost t x ∧
      ((p.ddp refPos dt).terminalCost t x = 0 ↔ x 0 = refPos t ∧ x 1 = 0 ∧ x 2 = 0 ∧ x 3 = 0)) := by
  have h1 := dot_abs2_nonneg (w := p.runningX) (v := x - CartPole.ref refPos t) fun i => (hx i).le
  have h2 := dot_abs2_nonneg (w := p.runningU) (v := u) fun i => (hu i).le
  have h3 := dot_abs2_nonneg (w := p.terminalX) (v := x - CartPole.ref refPos t) fun i => (ht i).le
  have e1 : (p.ddp refPos dt).runningCost t x u =
      1 / 2 * (p.runningX ⬝ᵥ abs2 (x - CartPole.ref refPos t)) + 1 / 2 * (p.runningU ⬝ᵥ abs2 u) := by
    simp [CartPole.ddp, CartPole.runningCost]
  have e2 : (p.ddp refPos dt).terminalCost t x = 1 / 2 * (p.terminalX ⬝ᵥ abs2 (x - CartPole.ref refPos t)) := by
    simp [CartPole.ddp, CartPole.terminalCost]
  have hz : x - CartPole.ref refPos t = 0 ↔ x 0 = refPos t ∧ x 1 = 0 ∧ x 2 = 0 ∧ x 3 = 0 := by
    rw [sub_eq_zero, funext_iff, Fin.forall_fin_succ, Fin.forall_fin_succ, Fin.forall_fin_succ, Fin.forall_fin_succ]
    simp [CartPole.ref]
  have hu0 : u = 0 ↔ u 0 = 0 := by rw [funext_iff, Fin.forall_fin_one]; rfl
  rw [e1, e2]
  refine ⟨⟨by linarith, ?_⟩, by linarith, ?_⟩
  · rw [← hu0, ← dot_abs2_eq_zero hu]
    constructor
    · intro h
      have ha : p.runningX ⬝ᵥ abs2 (x - CartPole.ref refPos t) = 0 := by linarith
      have hb : p.runningU ⬝ᵥ abs2 u = 0 := by linarith
      have hc := hz.1 ((dot_abs2_eq_zero hx).1 ha)
      exact ⟨hc.1, hc.2.1, hc.2.2.1, hc.2.2.2, hb⟩
    · rintro ⟨a, b, c, d, e⟩
      rw [(dot_abs2_eq_zero hx).2 (hz.2 ⟨a, b, c, d⟩), e]
      ring
  · rw [← hz, ← dot_abs2_eq_zero ht]
    constructor
    · intro h; linarith
    · intro h; rw [h]; ring

/-- **C104** The same costs are used by the fast MPC example. -/
theorem C104_cartpole_fmpc (p : CartPole ℝ) (refPos : ℝ → ℝ) (dt : ℝ) :
    (p.fmpc refPos dt).runningCost = (p.ddp refPos dt).runningCost ∧
      (p.fmpc refPos dt).terminalCost = (p.ddp refPos dt).terminalCost := ⟨rfl, rfl⟩

/-- **C104** The upright rest is an equilibrium: without force the state stays there, whatever the masses, the length and
the step. -/
theorem C104_cartpole_rest (p : CartPole ℝ) (refPos : ℝ → ℝ) (dt t r : ℝ) :
    (p.ddp refPos dt).stateEq t ![r, 0, 0, 0] ![0] = ![r, 0, 0, 0] := by
  funext i
  fin_cases i <;> simp [CartPole.ddp, CartPole.stateEq]

/-! ## Bipedal walking -/

/-- **C104** Bipedal walking, positive weights: the running cost is zero exactly for zero velocity and the ZMP at its
reference, the terminal cost exactly for the centre of mass at rest above the reference ZMP. -/
theorem C104_bipedal (p : Bipedal ℝ) (h1 : 0 < p.runningVel) (h2 : 0 < p.runningZmp) (h3 : 0 < p.terminalPos)
    (h4 : 0 < p.terminalVel) (dt t : ℝ) (x : Vec 2 ℝ) (u : Vec 1 ℝ) :
    (0 ≤ (p.ddp dt).runningCost t x u ∧ ((p.ddp dt).runningCost t x u = 0 ↔ x 1 = 0 ∧ u 0 = p.refZmp t)) ∧
    (0 ≤ (p.ddp dt).terminalCost t x ∧ ((p.ddp dt).terminalCost t x = 0 ↔ x 0 = p.refZmp t ∧ x 1 = 0)) := by
  have key : ∀ a b v w : ℝ, 0 < a → 0 < b → 0 ≤ a * (1 / 2) * (v * v) + b * (1 / 2) * (w * w) ∧
      (a * (1 / 2) * (v * v) + b * (1 / 2) * (w * w) = 0 ↔ v = 0 ∧ w = 0) := by
    intro a b v w ha hb
    have hv := mul_nonneg (by positivity : 0 ≤ a * (1 / 2)) (mul_self_nonneg v)
    have hw := mul_nonneg (by positivity : 0 ≤ b * (1 / 2)) (mul_self_nonneg w)
    refine ⟨by linarith, ?_, ?_⟩
    · intro h
      have h5 : a * (1 / 2) * (v * v) = 0 := by linarith
      have h6 : b * (1 / 2) * (w * w) = 0 := by linarith
      exact ⟨mul_self_eq_zero.1 ((mul_eq_zero.1 h5).resolve_left (by positivity)),
        mul_self_eq_zero.1 ((mul_eq_zero.1 h6).resolve_left (by positivity))⟩
    · rintro ⟨rfl, rfl⟩; ring
  have e1 : (p.ddp dt).runningCost t x u = p.runningVel * (1 / 2) * (x 1 * x 1) +
      p.runningZmp * (1 / 2) * ((u 0 - p.refZmp t) * (u 0 - p.refZmp t)) := by simp [Bipedal.ddp]
  have e2 : (p.ddp dt).terminalCost t x = p.terminalPos * (1 / 2) * ((x 0 - p.refZmp t) * (x 0 - p.refZmp t)) +
      p.terminalVel * (1 / 2) * (x 1 * x 1) := by simp [Bipedal.ddp]
  rw [e1, e2]
  have k1 := key _ _ (x 1) (u 0 - p.refZmp t) h1 h2
  have k2 := key _ _ (x 0 - p.refZmp t) (x 1) h3 h4
  rw [sub_eq_zero] at k1 k2
  exact ⟨k1, k2⟩

/-! ## Vertical motion -/

/-- **C104** Vertical motion, positive weights, with and without the smooth absolute value, any number of contacts: the
running cost is zero exactly at rest at the reference height without contact forces, the terminal cost exactly at rest at
the reference height. -/
theorem C104_vertical (p : Vertical ℝ) (hx : ∀ i, 0 < p.runningX i) (hu : 0 < p.runningU) (ht : ∀ i, 0 < p.terminalX i)
    (dt t : ℝ) (x : Vec 2 ℝ) (u : Vec (Vertical.inputDim t) ℝ) :
    (0 ≤ (p.ddp dt).runningCost t x u ∧ ((p.ddp dt).runningCost t x u = 0 ↔ x 0 = p.refPos t ∧ x 1 = 0 ∧ u = 0)) ∧
    (0 ≤ (p.ddp dt).terminalCost t x ∧ ((p.ddp dt).terminalCost t x = 0 ↔ x 0 = p.refPos t ∧ x 1 = 0)) := by
  have h1 := dot_abs2_nonneg (w := p.runningX) (v := x - p.ref t) fun i => (hx i).le
  have h3 := dot_abs2_nonneg (w := p.terminalX) (v := x - p.ref t) fun i => (ht i).le
  have hz : x - p.ref t = 0 ↔ x 0 = p.refPos t ∧ x 1 = 0 := by
    rw [sub_eq_zero, funext_iff, Fin.forall_fin_two]
    simp [Vertical.ref]
  have e1 : (p.ddp dt).runningCost t x u = 1 / 2 * (p.runningX ⬝ᵥ abs2 (x - p.ref t)) +
      1 / 2 * p.runningU * (if p.smooth then sqNorm (smoothAbs u) else sqNorm u) := by
    cases hs : p.smooth <;> simp [Vertical.ddp, Vertical.runningCost, hs]
  have e2 : (p.ddp dt).terminalCost t x = 1 / 2 * (p.terminalX ⬝ᵥ abs2 (x - p.ref t)) := by simp [Vertical.ddp]
  have h2 : 0 ≤ (if p.smooth then sqNorm (smoothAbs u) else sqNorm u) := by
    split <;> exact sqNorm_nonneg' _
  have h2z : (if p.smooth then sqNorm (smoothAbs u) else sqNorm u) = 0 ↔ u = 0 := by
    split
    · rw [sqNorm_eq_zero', smoothAbs_eq_zero]
    · exact sqNorm_eq_zero'
  have hpos : 0 ≤ 1 / 2 * p.runningU * (if p.smooth then sqNorm (smoothAbs u) else sqNorm u) :=
    mul_nonneg (by positivity) h2
  rw [e1, e2]
  refine ⟨⟨by linarith, ?_⟩, by linarith, ?_⟩
  · rw [← h2z, ← and_assoc, ← hz, ← dot_abs2_eq_zero hx]
    constructor
    · intro h
      have h5 : 1 / 2 * p.runningU * (if p.smooth then sqNorm (smoothAbs u) else sqNorm u) = 0 := by linarith
      exact ⟨by linarith, (mul_eq_zero.1 h5).resolve_left (by positivity)⟩
    · rintro ⟨ha, hb⟩; rw [ha, hb]; ring
  · rw [← hz, ← dot_abs2_eq_zero ht]
    constructor
    · intro h; linarith
    · intro h; rw [h]; ring

/-! ## Centroidal motion -/

/-- **C104** Centroidal motion, positive weights: the running cost is zero exactly with the centre of mass at the reference,
no linear and angular momentum and no forces, the terminal cost exactly with the first two. -/
theorem C104_centroidal (p : Centroidal ℝ) (hx : ∀ i, 0 < p.runningX i) (hu : 0 < p.runningU) (ht : ∀ i, 0 < p.terminalX i)
    (dt t : ℝ) (x : Vec 9 ℝ) (u : Vec (p.k t) ℝ) :
    (0 ≤ (p.ddp dt).runningCost t x u ∧
      ((p.ddp dt).runningCost t x u = 0 ↔
        (∀ i : Fin 3, x ⟨i, by omega⟩ = p.refPos t i) ∧ (∀ i : Fin 9, 3 ≤ i.1 → x i = 0) ∧ u = 0)) ∧
    (0 ≤ (p.ddp dt).terminalCost t x ∧
      ((p.ddp dt).terminalCost t x = 0 ↔
        (∀ i : Fin 3, x ⟨i, by omega⟩ = p.refPos t i) ∧ ∀ i : Fin 9, 3 ≤ i.1 → x i = 0)) := by
  have h1 := dot_abs2_nonneg (w := p.runningX) (v := p.diff t x) fun i => (hx i).le
  have h3 := dot_abs2_nonneg (w := p.terminalX) (v := p.diff t x) fun i => (ht i).le
  have hz : p.diff t x = 0 ↔ (∀ i : Fin 3, x ⟨i, by omega⟩ = p.refPos t i) ∧ ∀ i : Fin 9, 3 ≤ i.1 → x i = 0 := by
    rw [funext_iff]
    constructor
    · intro h
      refine ⟨fun i => ?_, fun i hi => ?_⟩
      · have h0 := h ⟨i, by omega⟩
        fin_cases i <;> simp [Centroidal.diff] at h0 <;> simp <;> linarith
      · have h0 := h i
        fin_cases i <;> simp [Centroidal.diff] at h0 hi <;> simpa using h0
    · rintro ⟨ha, hb⟩ i
      have h30 := ha 0
      have h31 := ha 1
      have h32 := ha 2
      have hbi := hb i
      fin_cases i <;> simp [Centroidal.diff] at * <;> first | (rw [sub_eq_zero]; assumption) | assumption
  have e1 : (p.ddp dt).runningCost t x u = 1 / 2 * (p.runningX ⬝ᵥ abs2 (p.diff t x)) + 1 / 2 * p.runningU * sqNorm u := by
    simp [Centroidal.ddp]
  have e2 : (p.ddp dt).terminalCost t x = 1 / 2 * (p.terminalX ⬝ᵥ abs2 (p.diff t x)) := by simp [Centroidal.ddp]
  have hpos : 0 ≤ 1 / 2 * p.runningU * sqNorm u := mul_nonneg (by positivity) (sqNorm_nonneg' u)
  rw [e1, e2]
  refine ⟨⟨by linarith, ?_⟩, by linarith, ?_⟩
  · rw [← and_assoc, ← hz, ← dot_abs2_eq_zero hx, ← sqNorm_eq_zero']
    constructor
    · intro h
      have h5 : 1 / 2 * p.runningU * sqNorm u = 0 := by linarith
      exact ⟨by linarith, (mul_eq_zero.1 h5).resolve_left (by positivity)⟩
    · rintro ⟨ha, hb⟩; rw [ha, hb]; ring
  · rw [← hz, ← dot_abs2_eq_zero ht]
    constructor
    · intro h; linarith
    · intro h; rw [h]; ring

/-! ## Oscillator -/

/-- **C104** Oscillator: the running cost is zero exactly at the origin without input, which is an equilibrium. -/
theorem C104_oscillator (dt t : ℝ) (x : Vec 2 ℝ) (u : Vec 1 ℝ) :
    0 ≤ (oscillator dt).runningCost t x u ∧ ((oscillator dt).runningCost t x u = 0 ↔ x = 0 ∧ u = 0) ∧
      (oscillator dt).stateEq t 0 0 = 0 := by
  have h1 := sqNorm_nonneg' x
  have h2 := sqNorm_nonneg' u
  have e : (oscillator dt).runningCost t x u = 1 / 2 * (sqNorm x + sqNorm u) := by simp [oscillator]
  rw [e]
  refine ⟨by linarith, ?_, ?_⟩
  · rw [← sqNorm_eq_zero' (v := x), ← sqNorm_eq_zero' (v := u)]
    constructor
    · intro h; constructor <;> linarith
    · rintro ⟨ha, hb⟩; rw [ha, hb]; ring
  · funext i; fin_cases i <;> simp [oscillator]

/-! ## Total costs -/

/-- Trajectories of a problem with non-negative costs have a non-negative total cost. -/
theorem listSum_nonneg_of {n : ℕ} {md : ℝ → ℕ} {P : DDP.Callbacks (α := ℝ) n md} (hr : ∀ t x u, 0 ≤ P.runningCost t x u)
    (ht : ∀ t x, 0 ≤ P.terminalCost t x) {t0 dt : ℝ} {N : ℕ} {x0 : Vec n ℝ} {d : ControlData n ℝ}
    (h : IsTrajectory P t0 dt N x0 d) : 0 ≤ listSum d.costs := by
  rw [listSum_real]
  refine List.sum_nonneg fun c hc => ?_
  obtain ⟨i, hi, rfl⟩ := List.getElem_of_mem hc
  have hl := h.lenC
  rcases Nat.lt_or_ge i N with hi' | hi'
  · obtain ⟨x, u, _, _, _, h1⟩ := h.step i hi'
    rw [List.getElem?_eq_getElem hi] at h1
    rw [Option.some.inj h1]
    exact hr _ _ _
  · obtain ⟨x, _, h1⟩ := h.term
    obtain rfl : i = N := by omega
    rw [List.getElem?_eq_getElem hi] at h1
    rw [Option.some.inj h1]
    exact ht _ _

/-- With the default configuration of the solver and non-negative costs there is a number of iterations that is never
exceeded, whatever `max_iter` is. -/
theorem iterations_of_nonneg {n : ℕ} {md : ℝ → ℕ} {P : DDP.Callbacks (α := ℝ) n md}
    (hr : ∀ t x u, 0 ≤ P.runningCost t x u) (ht : ∀ t x, 0 ≤ P.terminalCost t x)
    (L : LLT ℝ) (lim : Option ((t : ℝ) → Vec (md t) ℝ × Vec (md t) ℝ)) (withConstraint : Bool) (alphas : List ℝ)
    (dt t0 : ℝ) (x0 : Vec n ℝ) (us : List (Σ k : ℕ, Vec k ℝ)) (hd : DimsOk md t0 dt us) :
    ∃ K : ℕ, ∀ maxIter : ℤ, ∀ scratch : Scratch n (fun i => md (timeAt t0 dt i)) ℝ, ∀ o : Obj n ℝ,
      (solve L P lim dt { defaultConfig alphas maxIter us.length with withConstraint := withConstraint } o t0 scratch x0
        us).1.trace.length ≤ K + 1 := by
  have := C102_uniform (L := L) (P := P) (lim := lim) (dt := dt) (t0 := t0) (x0 := x0) (us := us) (J := 0)
    (cfg := { defaultConfig alphas 0 us.length with withConstraint := withConstraint })
    (by simp only [defaultConfig, lit_real]; norm_num) (by simp only [defaultConfig, lit_real]; norm_num)
    (by simp only [defaultConfig, lit_real]; norm_num) (by simp [defaultConfig])
    (by simp only [defaultConfig, lit_real]; norm_num) rfl hd fun d h => listSum_nonneg_of hr ht h
  exact this

/-- **C104** `CartPole` example, positive weights, default configuration: the number of iterations has a bound that does
not depend on `max_iter`. -/
theorem C104_cartpole_iterations (p : CartPole ℝ) (hx : ∀ i, 0 < p.runningX i) (hu : ∀ i, 0 < p.runningU i)
    (hT : ∀ i, 0 < p.terminalX i) (r : ℝ → ℝ) (s : ℝ)
    (L : LLT ℝ) (lim : Option ((t : ℝ) → Vec ((fun _ => 1) t) ℝ × Vec ((fun _ => 1) t) ℝ)) (withConstraint : Bool) (alphas : List ℝ)
    (dt t0 : ℝ) (x0 : Vec 4 ℝ) (us : List (Σ k : ℕ, Vec k ℝ)) (hd : DimsOk (fun _ => 1) t0 dt us) :
    ∃ K : ℕ, ∀ maxIter : ℤ, ∀ scratch : Scratch 4 (fun i => (fun _ => 1) (timeAt t0 dt i)) ℝ, ∀ o : Obj 4 ℝ,
      (solve L (p.ddp r s) lim dt { defaultConfig alphas maxIter us.length with withConstraint := withConstraint } o t0 scratch
        x0 us).1.trace.length ≤ K + 1 :=
  iterations_of_nonneg (fun t x u => (C104_cartpole p hx hu hT r s t x u).1.1) (fun t x => (C104_cartpole p hx hu hT r s t x 0).2.1)
    L lim withConstraint alphas dt t0 x0 us hd

/-- **C104** `Bipedal` example, positive weights, default configuration: the number of iterations has a bound that does
not depend on `max_iter`. -/
theorem C104_bipedal_iterations (p : Bipedal ℝ) (h1 : 0 < p.runningVel) (h2 : 0 < p.runningZmp)
    (h3 : 0 < p.terminalPos) (h4 : 0 < p.terminalVel) (s : ℝ)
    (L : LLT ℝ) (lim : Option ((t : ℝ) → Vec ((fun _ => 1) t) ℝ × Vec ((fun _ => 1) t) ℝ)) (withConstraint : Bool) (alphas : List ℝ)
    (dt t0 : ℝ) (x0 : Vec 2 ℝ) (us : List (Σ k : ℕ, Vec k ℝ)) (hd : DimsOk (fun _ => 1) t0 dt us) :
    ∃ K : ℕ, ∀ maxIter : ℤ, ∀ scratch : Scratch 2 (fun i => (fun _ => 1) (timeAt t0 dt i)) ℝ, ∀ o : Obj 2 ℝ,
      (solve L (p.ddp s) lim dt { defaultConfig alphas maxIter us.length with withConstraint := withConstraint } o t0 scratch
        x0 us).1.trace.length ≤ K + 1 :=
  iterations_of_nonneg (fun t x u => (C104_bipedal p h1 h2 h3 h4 s t x u).1.1) (fun t x => (C104_bipedal p h1 h2 h3 h4 s t x 0).2.1)
    L lim withConstraint alphas dt t0 x0 us hd

/-- **C104** `Vertical` example, positive weights, default configuration: the number of iterations has a bound that does
not depend on `max_iter`. -/
theorem C104_vertical_iterations (p : Vertical ℝ) (hx : ∀ i, 0 < p.runningX i) (hu : 0 < p.runningU)
    (hT : ∀ i, 0 < p.terminalX i) (s : ℝ)
    (L : LLT ℝ) (lim : Option ((t : ℝ) → Vec (Vertical.inputDim t) ℝ × Vec (Vertical.inputDim t) ℝ)) (withConstraint : Bool) (alphas : List ℝ)
    (dt t0 : ℝ) (x0 : Vec 2 ℝ) (us : List (Σ k : ℕ, Vec k ℝ)) (hd : DimsOk Vertical.inputDim t0 dt us) :
    ∃ K : ℕ, ∀ maxIter : ℤ, ∀ scratch : Scratch 2 (fun i => Vertical.inputDim (timeAt t0 dt i)) ℝ, ∀ o : Obj 2 ℝ,
      (solve L (p.ddp s) lim dt { defaultConfig alphas maxIter us.length with withConstraint := withConstraint } o t0 scratch
        x0 us).1.trace.length ≤ K + 1 :=
  iterations_of_nonneg (fun t x u => (C104_vertical p hx hu hT s t x u).1.1) (fun t x => (C104_vertical p hx hu hT s t x 0).2.1)
    L lim withConstraint alphas dt t0 x0 us hd

/-- **C104** `Centroidal` example, positive weights, default configuration: the number of iterations has a bound that does
not depend on `max_iter`. -/
theorem C104_centroidal_iterations (p : Centroidal ℝ) (hx : ∀ i, 0 < p.runningX i) (hu : 0 < p.runningU)
    (hT : ∀ i, 0 < p.terminalX i) (s : ℝ)
    (L : LLT ℝ) (lim : Option ((t : ℝ) → Vec (p.k t) ℝ × Vec (p.k t) ℝ)) (withConstraint : Bool) (alphas : List ℝ)
    (dt t0 : ℝ) (x0 : Vec 9 ℝ) (us : List (Σ k : ℕ, Vec k ℝ)) (hd : DimsOk p.k t0 dt us) :
    ∃ K : ℕ, ∀ maxIter : ℤ, ∀ scratch : Scratch 9 (fun i => p.k (timeAt t0 dt i)) ℝ, ∀ o : Obj 9 ℝ,
      (solve L (p.ddp s) lim dt { defaultConfig alphas maxIter us.length with withConstraint := withConstraint } o t0 scratch
        x0 us).1.trace.length ≤ K + 1 :=
  iterations_of_nonneg (fun t x u => (C104_centroidal p hx hu hT s t x u).1.1) (fun t x => (C104_centroidal p hx hu hT s t x 0).2.1)
    L lim withConstraint alphas dt t0 x0 us hd

/-- **C104** Cart-pole, constant reference: from the upright rest at the reference, the trajectory that stays there without
force has total cost zero, and it is the only trajectory from there with a total cost that is not positive. -/
theorem C104_cartpole_optimal (p : CartPole ℝ) (hx : ∀ i, 0 < p.runningX i) (hu : ∀ i, 0 < p.runningU i)
    (ht : ∀ i, 0 < p.terminalX i) (r t0 dt dt' : ℝ) (N : ℕ) (d : ControlData 4 ℝ)
    (h : IsTrajectory (p.ddp (fun _ => r) dt') t0 dt N ![r, 0, 0, 0] d) :
    (listSum d.costs ≤ 0 ↔ d.us = List.replicate N ⟨1, ![0]⟩) ∧
      (d.us = List.replicate N ⟨1, ![0]⟩ → listSum d.costs = 0) := by
  have hrun := fun t x u => (C104_cartpole p hx hu ht (fun _ => r) dt' t x u).1
  have hterm := fun t x => (C104_cartpole p hx hu ht (fun _ => r) dt' t x 0).2
  have key : d.us = List.replicate N ⟨1, ![0]⟩ → listSum d.costs = 0 := by
    intro hd
    have hxs : ∀ i, i ≤ N → d.xs[i]? = some ![r, 0, 0, 0] := by
      intro i
      induction i with
      | zero => intro _; exact h.start
      | succ i ih =>
        intro hi
        obtain ⟨x, u, h1, h2, h3, _⟩ := h.step i (by omega)
        rw [ih (by omega)] at h1
        rw [hd, List.getElem?_replicate_of_lt (by omega)] at h2
        cases h1
        cases h2
        rw [h3, C104_cartpole_rest]
    rw [listSum_real]
    refine List.sum_eq_zero fun c hc => ?_
    obtain ⟨i, hi, rfl⟩ := List.getElem_of_mem hc
    have hl := h.lenC
    rcases Nat.lt_or_ge i N with hi' | hi'
    · obtain ⟨x, u, h1, h2, _, h4⟩ := h.step i hi'
      rw [hxs i hi'.le] at h1
      rw [hd, List.getElem?_replicate_of_lt hi'] at h2
      cases h1
      cases h2
      rw [List.getElem?_eq_getElem hi] at h4
      rw [Option.some.inj h4]
      exact (hrun _ _ _).2.2 ⟨rfl, rfl, rfl, rfl, rfl⟩
    · obtain ⟨x, h1, h4⟩ := h.term
      obtain rfl : i = N := by omega
      rw [hxs i le_rfl] at h1
      cases h1
      rw [List.getElem?_eq_getElem hi] at h4
      rw [Option.some.inj h4]
      exact (hterm _ _).2.2 ⟨rfl, rfl, rfl, rfl⟩
  refine ⟨⟨fun hle => ?_, fun hd => (key hd).le⟩, key⟩
  have hnn : ∀ c ∈ d.costs, 0 ≤ c := by
    intro c hc
    obtain ⟨i, hi, rfl⟩ := List.getElem_of_mem hc
    have hl := h.lenC
    rcases Nat.lt_or_ge i N with hi' | hi'
    · obtain ⟨x, u, _, _, _, h4⟩ := h.step i hi'
      rw [List.getElem?_eq_getElem hi] at h4
      rw [Option.some.inj h4]
      exact (hrun _ _ _).1
    · obtain ⟨x, _, h4⟩ := h.term
      obtain rfl : i = N := by omega
      rw [List.getElem?_eq_getElem hi] at h4
      rw [Option.some.inj h4]
      exact (hterm _ _).1
  rw [listSum_real] at hle
  have hz : ∀ c ∈ d.costs, c = 0 := by
    intro c hc
    have h1 := List.single_le_sum hnn c hc
    exact le_antisymm (by linarith) (hnn c hc)
  apply List.ext_getElem?
  intro i
  rcases Nat.lt_or_ge i N with hi' | hi'
  · obtain ⟨x, u, _, h2, _, h4⟩ := h.step i hi'
    rw [h2, List.getElem?_replicate_of_lt hi']
    have hc := hz _ (List.mem_of_getElem? h4)
    have hu0 := ((hrun _ _ _).2.1 hc).2.2.2.2
    have : u = ![0] := by funext j; rw [Subsingleton.elim j 0]; exact hu0
    subst this
    rfl
  · rw [List.getElem?_eq_none (by rw [h.lenU]; exact hi'), List.getElem?_eq_none (by simpa using hi')]

/-- The default weights of the examples are positive. -/
example : (∀ i, 0 < (CartPole.default : CartPole ℝ).runningX i) ∧ (∀ i, 0 < (CartPole.default : CartPole ℝ).runningU i) ∧
    ∀ i, 0 < (CartPole.default : CartPole ℝ).terminalX i := by
  refine ⟨fun i => ?_, fun i => ?_, fun i => ?_⟩ <;> fin_cases i <;> norm_num [CartPole.default]

example (r : ℝ → ℝ) : (∀ i, 0 < (Vertical.default r : Vertical ℝ).runningX i) ∧ 0 < (Vertical.default r : Vertical ℝ).runningU ∧
    ∀ i, 0 < (Vertical.default r : Vertical ℝ).terminalX i := by
  refine ⟨fun i => ?_, ?_, fun i => ?_⟩
  · fin_cases i <;> norm_num [Vertical.default]
  · norm_num [Vertical.default]
  · fin_cases i <;> norm_num [Vertical.default]

example (z o : ℝ → ℝ) : 0 < (Bipedal.default z o).runningVel ∧ 0 < (Bipedal.default z o).runningZmp ∧
    0 < (Bipedal.default z o).terminalPos ∧ 0 < (Bipedal.default z o).terminalVel := by
  norm_num [Bipedal.default]

end Nmpc.Problems
