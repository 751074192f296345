import Verif.DDP.Coord
import Verif.Problems.Model

/-!
# C126: translations of the examples
-/

namespace Nmpc.DDP

open Matrix

variable {n k : ℕ}

/-- The translation by `b`. -/
def Coord.shift (b : Vec n ℝ) : Coord n := ⟨1, 1, b, Matrix.one_mul 1⟩

@[simp] theorem Coord.shift_into (b x : Vec n ℝ) : (Coord.shift b).into x = x + b := by
  show (1 : Mat n n ℝ) *ᵥ x + b = _
  rw [one_mulVec]

@[simp] theorem Coord.shift_back (b x : Vec n ℝ) : (Coord.shift b).back x = x - b := by
  show (1 : Mat n n ℝ) *ᵥ (x - b) = _
  rw [one_mulVec]

@[simp] theorem Coord.shift_F (b : Vec n ℝ) (d : FDeriv n k ℝ) : (Coord.shift b).F d = d := by
  show FDeriv.mk ((1 : Mat n n ℝ) * d.Fx * 1) (1 * d.Fu) = d
  rw [Matrix.mul_one, Matrix.one_mul, Matrix.one_mul]

@[simp] theorem Coord.shift_Fi (b : Vec n ℝ) (d : FDeriv n k ℝ) : (Coord.shift b).Fi d = d := Coord.shift_F b d

@[simp] theorem Coord.shift_L (b : Vec n ℝ) (d : LDeriv n k ℝ) : (Coord.shift b).L d = d := by
  show LDeriv.mk ((1 : Mat n n ℝ)ᵀ *ᵥ d.Lx) d.Lu ((1 : Mat n n ℝ)ᵀ * d.Lxx * 1) d.Luu ((1 : Mat n n ℝ)ᵀ * d.Lxu) = d
  rw [transpose_one, one_mulVec, Matrix.mul_one, Matrix.one_mul, Matrix.one_mul]

@[simp] theorem Coord.shift_Li (b : Vec n ℝ) (d : LDeriv n k ℝ) : (Coord.shift b).Li d = d := Coord.shift_L b d

@[simp] theorem Coord.shift_V (b : Vec n ℝ) (d : VDeriv n ℝ) : (Coord.shift b).V d = d := by
  show VDeriv.mk ((1 : Mat n n ℝ)ᵀ *ᵥ d.Vx) ((1 : Mat n n ℝ)ᵀ * d.Vxx * 1) = d
  rw [transpose_one, one_mulVec, Matrix.mul_one, Matrix.one_mul]

@[simp] theorem Coord.shift_Vi (b : Vec n ℝ) (d : VDeriv n ℝ) : (Coord.shift b).Vi d = d := Coord.shift_V b d

theorem Coord.shift_scratch {m : ℕ → ℕ} (b : Vec n ℝ) (s : Scratch n m ℝ) : (Coord.shift b).scratch s = s := by
  unfold Coord.scratch Coord.gains Coord.derivs
  simp only [shift_F, shift_L, shift_V, show (Coord.shift b).Ti = 1 from rfl, Matrix.mul_one]

/-- **C126** Translations: with every configuration and every limits, moving the problem moves the plan. -/
theorem C126_translation {md : ℝ → ℕ} {P P' : Callbacks n md} {L : LLT ℝ} {cfg : Config ℝ}
    {lim : Option ((t : ℝ) → Vec (md t) ℝ × Vec (md t) ℝ)} {dt t0 : ℝ} {o : Obj n ℝ} {x0 : Vec n ℝ}
    {us : List (Σ k : ℕ, Vec k ℝ)} {scratch : Scratch n (fun i => md (timeAt t0 dt i)) ℝ} (b : Vec n ℝ)
    (hL : ∀ {k : ℕ} (M : Mat k k ℝ), IsLinearMap ℝ (L.solve M)) (hP : (Coord.shift b).callbacks P = P') :
    let r := solve L P lim dt cfg o t0 scratch x0 us
    let r' := solve L P' lim dt cfg ((Coord.shift b).obj o) t0 scratch (x0 + b) us
    r'.2 = r.2 ∧ r'.1.control.us = r.1.control.us ∧ r'.1.control.costs = r.1.control.costs ∧ r'.1.trace = r.1.trace ∧
      r'.1.control.xs = r.1.control.xs.map fun x => x + b := by
  have h := C126_coordinates (P := P) (lim := lim) (dt := dt) (t0 := t0) (o := o) (x0 := x0) (us := us) (scratch := scratch) (cfg := cfg)
    (Coord.shift b) hL (fun _ => by show (1 : Mat n n ℝ)ᵀ * 1 = 1; rw [transpose_one, Matrix.mul_one])
  rw [hP, Coord.shift_scratch, Coord.shift_into] at h
  intro r r'
  have hr : r' = ((Coord.shift b).obj r.1, r.2) := h
  rw [hr]
  refine ⟨rfl, rfl, rfl, rfl, ?_⟩
  show r.1.control.xs.map (Coord.shift b).into = _
  exact List.map_congr_left fun x _ => Coord.shift_into b x

end Nmpc.DDP

namespace Nmpc.Problems

open DDP

/-- **C126** Moving the cart-pole problem along the rail moves its reference position and changes nothing else. -/
theorem C126_cartpole (p : CartPole ℝ) (refPos : ℝ → ℝ) (dt d : ℝ) :
    (Coord.shift ![d, 0, 0, 0]).callbacks (p.ddp refPos dt) = p.ddp (fun t => refPos t + d) dt := by
  have hr : ∀ t, CartPole.ref (fun t => refPos t + d) t = CartPole.ref refPos t + ![d, 0, 0, 0] := by
    intro t; funext i; fin_cases i <;> simp [CartPole.ref]
  have hs : ∀ (x : Vec 4 ℝ) t, x - ![d, 0, 0, 0] - CartPole.ref refPos t = x - CartPole.ref (fun t => refPos t + d) t := by
    intro x t; rw [hr]; abel
  unfold Coord.callbacks CartPole.ddp
  simp only [Coord.shift_into, Coord.shift_back, Coord.shift_F, Coord.shift_L, Coord.shift_V, Coord.shift_Fi]
  congr 1
  · funext t x u i
    fin_cases i <;> simp [CartPole.stateEq]
    ring
  · funext t x u
    simp only [CartPole.runningCost, hs]
  · funext t x
    simp only [CartPole.terminalCost, hs]
  · have h1 : ∀ x : Vec 4 ℝ, (x - ![d, 0, 0, 0]) 1 = x 1 := fun x => by simp
    have h3 : ∀ x : Vec 4 ℝ, (x - ![d, 0, 0, 0]) 3 = x 3 := fun x => by simp
    funext t x u b
    congr 1
    · simp only [CartPole.stateEqX, h1, h3]
    · simp only [CartPole.stateEqU, h1]
  · funext t x u b
    simp only [CartPole.runningCostDeriv, hs]
  · funext t x b
    simp only [CartPole.terminalCostDeriv, hs]

/-- **C126** Moving the vertical motion problem up moves its reference height and changes nothing else. -/
theorem C126_vertical (p : Vertical ℝ) (dt d : ℝ) :
    (Coord.shift ![d, 0]).callbacks (p.ddp dt) = ({ p with refPos := fun t => p.refPos t + d } : Vertical ℝ).ddp dt := by
  have hr : ∀ t, Vertical.ref { p with refPos := fun t => p.refPos t + d } t = p.ref t + ![d, 0] := by
    intro t; funext i; fin_cases i <;> simp [Vertical.ref]
  have hs : ∀ (x : Vec 2 ℝ) t, x - ![d, 0] - p.ref t = x - Vertical.ref { p with refPos := fun t => p.refPos t + d } t := by
    intro x t; rw [hr]; abel
  unfold Coord.callbacks Vertical.ddp
  simp only [Coord.shift_into, Coord.shift_back, Coord.shift_F, Coord.shift_L, Coord.shift_V]
  congr 1
  · funext t x u i
    have h0 : ∀ v : Vec 2 ℝ, (v - ![d, 0] + smulv dt ![(v - ![d, 0]) 1, FOps.sum u / p.mass - grav] + ![d, 0]) =
        v + smulv dt ![v 1, FOps.sum u / p.mass - grav] := by
      intro v
      have h1 : (v - ![d, 0]) 1 = v 1 := by simp
      rw [h1]; abel
    exact congrFun (h0 x) i
  · funext t x u
    simp only [Vertical.runningCost, hs]
  · funext t x
    simp only [hs]
  · funext t x u b
    simp only [Vertical.runningCostDeriv, hs]
  · funext t x b
    simp only [hs]

/-- An LLT that solves linearly. -/
theorem exactLLT_linear {k : ℕ} (M : Mat k k ℝ) : IsLinearMap ℝ (exactLLT.solve M) where
  map_add x y := by simp [exactLLT, Matrix.mulVec_add]
  map_smul a x := by simp [exactLLT, Matrix.mulVec_smul]

/-- The cart-pole example one metre further along the rail: same forces, states moved by one metre. -/
example (p : CartPole ℝ) (cfg : Config ℝ) (scratch : Scratch 4 (fun _ => 1) ℝ) (us : List (Σ k : ℕ, Vec k ℝ)) :
    (solve exactLLT (p.ddp (fun _ => 1) (1 / 100)) (some fun _ => (fun _ => -15, fun _ => 15)) (1 / 100) cfg ⟨⟨[], [], []⟩, []⟩ 0 scratch
        ![1, 3, 0, 0] us).1.control.us =
      (solve exactLLT (p.ddp (fun _ => 0) (1 / 100)) (some fun _ => (fun _ => -15, fun _ => 15)) (1 / 100) cfg ⟨⟨[], [], []⟩, []⟩ 0 scratch
        ![0, 3, 0, 0] us).1.control.us := by
  have h := C126_translation (P := p.ddp (fun _ => 0) (1 / 100)) (lim := some fun _ => (fun _ => -15, fun _ => 15)) (dt := 1 / 100)
    (t0 := 0) (o := ⟨⟨[], [], []⟩, []⟩) (x0 := ![0, 3, 0, 0]) (us := us) (scratch := scratch) (cfg := cfg) (L := exactLLT)
    ![1, 0, 0, 0] exactLLT_linear (C126_cartpole p _ _ 1)
  have hx : (![0, 3, 0, 0] + ![1, 0, 0, 0] : Vec 4 ℝ) = ![1, 3, 0, 0] := by
    funext i; fin_cases i <;> simp
  rw [hx] at h
  simp only [zero_add] at h
  exact h.2.1

/-- A change of units and axes that is not orthogonal: position in millimetres, velocity plus position. -/
noncomputable example : Coord 2 :=
  ⟨!![1000, 0; 1, 1], !![1 / 1000, 0; -1 / 1000, 1], ![5, 0], by
    ext i j; fin_cases i <;> fin_cases j <;> norm_num [Matrix.mul_apply, Fin.sum_univ_two]⟩

end Nmpc.Problems
