import Verif.Problems.PlanOrderCases
import Verif.Problems.Mechanics

/-!
# C138: the angular momentum of the centroidal example
-/

namespace Nmpc.Problems

open Set Matrix

/-- A function whose derivative is quadratic on an interval. -/
theorem cubic_of_deriv {w : ℝ → ℝ} {α β γ l r : ℝ} (hlr : l ≤ r)
    (h : ∀ s ∈ Icc l r, HasDerivWithinAt w (α + β * (s - l) + γ * ((s - l) ^ 2 / 2)) (Icc l r) s) :
    w r = w l + α * (r - l) + β * ((r - l) ^ 2 / 2) + γ * ((r - l) ^ 3 / 6) := by
  have hd : ∀ s ∈ Icc l r, HasDerivWithinAt (fun s => w s - (α * (s - l) + β * ((s - l) ^ 2 / 2) + γ * ((s - l) ^ 3 / 6))) 0 (Icc l r) s := by
    intro s hs
    have h0 : HasDerivWithinAt (fun s : ℝ => s - l) 1 (Icc l r) s := (hasDerivWithinAt_id s _).sub_const l
    refine ((h s hs).fun_sub (((h0.const_mul α).fun_add (((h0.fun_pow 2).div_const 2).const_mul β)).fun_add
      (((h0.fun_pow 3).div_const 6).const_mul γ))).congr_deriv ?_
    norm_num
    ring
  have := affine_of_deriv hd r ⟨hlr, le_rfl⟩
  simp only [sub_self] at this
  linear_combination this

/-- The moment of the contact forces about a point. -/
noncomputable def contactMoment {k : ℕ} (V ρ : Mat 3 k ℝ) (u : Vec k ℝ) (c : Vec 3 ℝ) : Vec 3 ℝ :=
  fun i => ∑ j, u j * (crossProduct (fun a => V a j - c a) fun a => ρ a j) i

theorem contactMoment_shift {k : ℕ} (V ρ : Mat 3 k ℝ) (u : Vec k ℝ) (c c' : Vec 3 ℝ) (i : Fin 3) :
    contactMoment V ρ u c' i = contactMoment V ρ u c i - (crossProduct (c' - c) fun a => ∑ j, u j * ρ a j) i := by
  fin_cases i <;>
  · simp only [contactMoment, cross_apply, Fin.isValue, cons_val_zero, cons_val_one, cons_val, Fin.mk_one, Fin.reduceFinMk, Fin.zero_eta, Pi.sub_apply,
      Finset.mul_sum, ← Finset.sum_sub_distrib]
    exact Finset.sum_congr rfl fun j _ => by ring

/-- **C138** Centroidal motion, angular momentum: for states and inputs that follow the state equation the angular momentum exceeds that of the continuous motion under the same contact forces by
exactly `dt²` times the sum of the cross products of `(5 v_l + v_{l+1})/6 - v_0/2` (`v` the velocity of the centre of mass) with the total contact force. -/
theorem C138_angular (p : Centroidal ℝ) {dt t0 : ℝ} {N : ℕ} (hdt : 0 < dt) {X : ℕ → Vec 9 ℝ} {U : (k : ℕ) → Vec (p.k (t0 + k * dt)) ℝ}
    (hst : ∀ k < N, X (k + 1) = (p.ddp dt).stateEq (t0 + k * dt) (X k) (U k))
    {com mom ang : ℝ → Fin 3 → ℝ} (hz0 : ∀ i : Fin 3, com t0 i = X 0 (i.castLE (by omega)))
    (hv0 : ∀ i : Fin 3, mom t0 i = X 0 (i.natAdd 3 |>.castLE (by omega)))
    (ha0 : ∀ i : Fin 3, ang t0 i = X 0 (i.natAdd 6))
    (hz : ∀ k < N, ∀ r ∈ Icc (t0 + k * dt) (t0 + (k + 1) * dt), ∀ i,
      HasDerivWithinAt (fun r => com r i) (1 / p.mass * mom r i) (Icc (t0 + k * dt) (t0 + (k + 1) * dt)) r)
    (hv : ∀ k < N, ∀ r ∈ Icc (t0 + k * dt) (t0 + (k + 1) * dt), ∀ i,
      HasDerivWithinAt (fun r => mom r i) (∑ j, U k j * p.ridges (t0 + k * dt) i j - p.mass * ![0, 0, 9.80665] i)
        (Icc (t0 + k * dt) (t0 + (k + 1) * dt)) r)
    (ha : ∀ k < N, ∀ r ∈ Icc (t0 + k * dt) (t0 + (k + 1) * dt), ∀ i,
      HasDerivWithinAt (fun r => ang r i)
        (∑ j, U k j * (crossProduct (fun a => p.vertices (t0 + k * dt) a j - com r a) fun a => p.ridges (t0 + k * dt) a j) i)
        (Icc (t0 + k * dt) (t0 + (k + 1) * dt)) r) :
    ∀ k ≤ N, ∀ i : Fin 3, X k (i.natAdd 6) = ang (t0 + k * dt) i + dt ^ 2 * ∑ l ∈ Finset.range k,
      (crossProduct (fun a => (5 * mom (t0 + l * dt) a + mom (t0 + (l + 1) * dt) a) / (6 * p.mass) - mom t0 a / (2 * p.mass))
        fun a => ∑ j, U l j * p.ridges (t0 + l * dt) a j) i := by
  have hlin := C138_centroidal p hdt hst hz0 hv0 hz hv
  intro k
  induction k with
  | zero => intro _ i; simp [ha0]
  | succ k ih =>
    intro hk i
    have hk' : k < N := hk
    have hle : t0 + (k : ℝ) * dt ≤ t0 + (k + 1) * dt := by nlinarith
    have hw : t0 + ((k : ℝ) + 1) * dt - (t0 + k * dt) = dt := by ring
    have hX : X (k + 1) (i.natAdd 6) = X k (i.natAdd 6) + dt * contactMoment (p.vertices (t0 + k * dt)) (p.ridges (t0 + k * dt)) (U k) (seg0 (X k)) i := by
      rw [hst k hk']
      show p.stateEq dt (t0 + k * dt) (X k) (U k) _ = _
      have hcr : ∀ a b : Vec 3 ℝ, cross a b = crossProduct a b := fun a b => by rw [cross_apply]; rfl
      have hm : Centroidal.moment (p.vertices (t0 + k * dt)) (p.ridges (t0 + k * dt)) (seg0 (X k)) (U k) i =
          contactMoment (p.vertices (t0 + k * dt)) (p.ridges (t0 + k * dt)) (U k) (seg0 (X k)) i := by
        rw [moment_real, Finset.sum_apply, contactMoment]
        refine Finset.sum_congr rfl fun j _ => ?_
        rw [Pi.smul_apply, hcr, smul_eq_mul]
        rfl
      rw [← hm, Centroidal.stateEq]
      fin_cases i <;> rfl
    set F : Vec 3 ℝ := fun a => ∑ j, U k j * p.ridges (t0 + k * dt) a j with hF
    set A : Vec 3 ℝ := fun a => F a - p.mass * ![0, 0, 9.80665] a with hA
    have hq : ∀ s ∈ Icc (t0 + (k : ℝ) * dt) (t0 + (k + 1) * dt), ∀ a, mom s a = mom (t0 + k * dt) a + A a * (s - (t0 + k * dt)) ∧
        com s a = com (t0 + k * dt) a + 1 / p.mass * ((s - (t0 + k * dt)) * (mom (t0 + k * dt) a + mom s a) / 2) := by
      intro s hs a
      have hsub : Icc (t0 + (k : ℝ) * dt) s ⊆ Icc (t0 + (k : ℝ) * dt) (t0 + (k + 1) * dt) := Icc_subset_Icc le_rfl hs.2
      exact quad_of_deriv (z := fun r => com r a) (v := fun r => mom r a) (fun r hr => (hz k hk' r (hsub hr) a).mono hsub)
        (fun r hr => (hv k hk' r (hsub hr) a).mono hsub) hs.1
    have hang := cubic_of_deriv (w := fun r => ang r i)
      (α := contactMoment (p.vertices (t0 + k * dt)) (p.ridges (t0 + k * dt)) (U k) (com (t0 + k * dt)) i)
      (β := -(1 / p.mass * (crossProduct (mom (t0 + k * dt)) F) i)) (γ := -(1 / p.mass * (crossProduct A F) i)) hle (fun s hs => by
        refine (ha k hk' s hs i).congr_deriv ?_
        change contactMoment (p.vertices (t0 + k * dt)) (p.ridges (t0 + k * dt)) (U k) (com s) i = _
        rw [contactMoment_shift _ _ _ (com (t0 + k * dt)) (com s) i]
        have hc : com s - com (t0 + k * dt) = fun a => 1 / p.mass * ((s - (t0 + k * dt)) * mom (t0 + k * dt) a + (s - (t0 + k * dt)) ^ 2 / 2 * A a) := by
          funext a
          rw [Pi.sub_apply, (hq s hs a).2, (hq s hs a).1]
          ring
        rw [hc, ← hF]
        fin_cases i <;> simp [cross_apply] <;> ring)
    rw [hw] at hang
    have hmom : ∀ a, mom (t0 + (k + 1) * dt) a = mom (t0 + k * dt) a + A a * dt := fun a => by
      rw [(hq _ ⟨hle, le_rfl⟩ a).1, hw]
    have hc : seg0 (X k) - com (t0 + k * dt) = fun a => -(dt / 2 * ((mom (t0 + k * dt) a - mom t0 a) / p.mass)) := by
      funext a
      have e : seg0 (X k) a = X k (a.castLE (by omega)) := by fin_cases a <;> rfl
      rw [Pi.sub_apply, e, (hlin k hk'.le a).2]
      ring
    rw [Finset.sum_range_succ, hX, ih hk'.le i, contactMoment_shift _ _ _ (com (t0 + k * dt)) (seg0 (X k)) i, hc, ← hF]
    push_cast
    rw [hang]
    simp only [hmom]
    fin_cases i <;> simp [cross_apply] <;> ring

/-- **C138** Hence the angular momentum differs from that of the motion by at most `3 V R T dt` for velocities of the centre of mass up to `V`, contact forces up to `R` and a duration `T`. -/
theorem C138_angular_bound (p : Centroidal ℝ) (hmass : 0 < p.mass) {dt t0 V R : ℝ} {N : ℕ} (hdt : 0 < dt) {X : ℕ → Vec 9 ℝ} {U : (k : ℕ) → Vec (p.k (t0 + k * dt)) ℝ}
    (hst : ∀ k < N, X (k + 1) = (p.ddp dt).stateEq (t0 + k * dt) (X k) (U k))
    {com mom ang : ℝ → Fin 3 → ℝ} (hz0 : ∀ i : Fin 3, com t0 i = X 0 (i.castLE (by omega)))
    (hv0 : ∀ i : Fin 3, mom t0 i = X 0 (i.natAdd 3 |>.castLE (by omega)))
    (ha0 : ∀ i : Fin 3, ang t0 i = X 0 (i.natAdd 6))
    (hz : ∀ k < N, ∀ r ∈ Icc (t0 + k * dt) (t0 + (k + 1) * dt), ∀ i,
      HasDerivWithinAt (fun r => com r i) (1 / p.mass * mom r i) (Icc (t0 + k * dt) (t0 + (k + 1) * dt)) r)
    (hv : ∀ k < N, ∀ r ∈ Icc (t0 + k * dt) (t0 + (k + 1) * dt), ∀ i,
      HasDerivWithinAt (fun r => mom r i) (∑ j, U k j * p.ridges (t0 + k * dt) i j - p.mass * ![0, 0, 9.80665] i)
        (Icc (t0 + k * dt) (t0 + (k + 1) * dt)) r)
    (ha : ∀ k < N, ∀ r ∈ Icc (t0 + k * dt) (t0 + (k + 1) * dt), ∀ i,
      HasDerivWithinAt (fun r => ang r i)
        (∑ j, U k j * (crossProduct (fun a => p.vertices (t0 + k * dt) a j - com r a) fun a => p.ridges (t0 + k * dt) a j) i)
        (Icc (t0 + k * dt) (t0 + (k + 1) * dt)) r)
    (hV : ∀ k ≤ N, ∀ i, |X k (Fin.castLE (by omega) (Fin.natAdd 3 (i : Fin 3)))| ≤ p.mass * V)
    (hR : ∀ k < N, ∀ i, |∑ j, U k j * p.ridges (t0 + k * dt) i j| ≤ R) :
    ∀ k ≤ N, ∀ i : Fin 3, |X k (i.natAdd 6) - ang (t0 + k * dt) i| ≤ 3 * V * R * (k * dt) * dt := by
  intro k hk i
  have hlin := C138_centroidal p hdt hst hz0 hv0 hz hv
  have hm : ∀ l ≤ N, ∀ a, |mom (t0 + l * dt) a| ≤ p.mass * V := fun l hl a => by
    rw [← (hlin l hl a).1]
    exact hV l hl a
  have hV0 : 0 ≤ V := nonneg_of_mul_nonneg_right ((abs_nonneg _).trans (hm 0 (by omega) 0)) hmass
  rw [C138_angular p hdt hst hz0 hv0 ha0 hz hv ha k hk i, add_sub_cancel_left, abs_mul, abs_of_nonneg (sq_nonneg dt)]
  have hterm : ∀ l ∈ Finset.range k,
      |(crossProduct (fun a => (5 * mom (t0 + l * dt) a + mom (t0 + (l + 1) * dt) a) / (6 * p.mass) - mom t0 a / (2 * p.mass))
        fun a => ∑ j, U l j * p.ridges (t0 + l * dt) a j) i| ≤ 3 * V * R := by
    intro l hl
    have hl : l < k := Finset.mem_range.1 hl
    set w : Fin 3 → ℝ := fun a => (5 * mom (t0 + l * dt) a + mom (t0 + (l + 1) * dt) a) / (6 * p.mass) - mom t0 a / (2 * p.mass) with hw
    set F : Fin 3 → ℝ := fun a => ∑ j, U l j * p.ridges (t0 + l * dt) a j with hF
    have hwb : ∀ a, |w a| ≤ 3 / 2 * V := by
      intro a
      have h1 := abs_le.1 (hm l (by omega) a)
      have h2 := hm (l + 1) (by omega) a
      push_cast at h2
      have h2 := abs_le.1 h2
      have h3 := hm 0 (by omega) a
      rw [Nat.cast_zero, zero_mul, add_zero] at h3
      have h3 := abs_le.1 h3
      have e : w a = (5 * mom (t0 + l * dt) a + mom (t0 + (l + 1) * dt) a - 3 * mom t0 a) / (6 * p.mass) := by
        rw [hw]
        field_simp
        ring
      rw [e, abs_le, le_div_iff₀ (by positivity), div_le_iff₀ (by positivity)]
      constructor <;> nlinarith
    have hFb : ∀ a, |F a| ≤ R := fun a => hR l (by omega) a
    have hR0 : 0 ≤ R := (abs_nonneg _).trans (hFb 0)
    have hprod : ∀ a b, |w a * F b| ≤ 3 / 2 * V * R := fun a b => by
      rw [abs_mul]
      exact mul_le_mul (hwb a) (hFb b) (abs_nonneg _) (by positivity)
    have hsub : ∀ a b c d, |w a * F b - w c * F d| ≤ 3 * V * R := fun a b c d =>
      (abs_sub _ _).trans (by linarith [hprod a b, hprod c d])
    rw [cross_apply]
    fin_cases i
    · exact hsub 1 2 2 1
    · exact hsub 2 0 0 2
    · exact hsub 0 1 1 0
  calc _ ≤ dt ^ 2 * ∑ l ∈ Finset.range k, 3 * V * R := by
        gcongr
        exact (Finset.abs_sum_le_sum_abs _ _).trans (Finset.sum_le_sum hterm)
    _ = _ := by
        rw [Finset.sum_const, Finset.card_range, nsmul_eq_mul]
        ring

/-- One contact at (1, 0, 0) that carries the weight of a body of mass 1. -/
noncomputable def glide : Centroidal ℝ where
  k := fun _ => 1
  vertices := fun _ i _ => ![1, 0, 0] i
  ridges := fun _ i _ => ![0, 0, 1] i
  refPos := fun _ => 0
  runningX := 0
  runningU := 1
  terminalX := 0
  mass := 1

theorem glide_sum (t : ℝ) (f : Fin (glide.k t) → ℝ) : ∑ j, f j = f ⟨0, Nat.one_pos⟩ := Fin.sum_univ_one f

/-- The body moves past the contact with speed 1: the angular momentum of the motion is `-(t - t²/2) g`, that of the plan differs from it by `-t g dt/2`. -/
example (X : ℕ → Vec 9 ℝ) {dt : ℝ} (hdt : 0 < dt) (hX0 : X 0 = ![0, 0, 0, 1, 0, 0, 0, 0, 0])
    (hst : ∀ k, X (k + 1) = (glide.ddp dt).stateEq (0 + k * dt) (X k) (fun _ => 9.80665)) (k : ℕ) :
    X k 7 = -((k * dt) - (k * dt) ^ 2 / 2) * 9.80665 - (k * dt) * 9.80665 * dt / 2 := by
  have h := C138_angular glide hdt (N := k) (X := X) (t0 := 0) (U := fun _ _ => 9.80665) (fun k _ => hst k)
    (com := fun r => ![r, 0, 0]) (mom := fun _ => ![1, 0, 0]) (ang := fun r => ![0, -(r - r ^ 2 / 2) * 9.80665, 0])
    (fun i => by rw [hX0]; fin_cases i <;> rfl) (fun i => by rw [hX0]; fin_cases i <;> rfl)
    (fun i => by rw [hX0]; fin_cases i <;> norm_num <;> rfl)
    (fun k _ r _ i => by
      fin_cases i
      · refine (hasDerivWithinAt_id r _).congr_deriv ?_
        simp [glide]
      · simpa [glide] using hasDerivWithinAt_const r _ (0 : ℝ)
      · simpa [glide] using hasDerivWithinAt_const r _ (0 : ℝ))
    (fun k _ r _ i => by
      refine (hasDerivWithinAt_const r _ _).congr_deriv ?_
      simp only [glide_sum]
      fin_cases i <;> simp [glide])
    (fun k _ r _ i => by
      have h0 := hasDerivWithinAt_id r (Icc (0 + (k : ℝ) * dt) (0 + (k + 1) * dt))
      have h1 := ((h0.fun_sub ((h0.fun_pow 2).div_const 2)).fun_neg).mul_const (9.80665 : ℝ)
      simp only [glide_sum]
      fin_cases i
      · refine (hasDerivWithinAt_const r _ (0 : ℝ)).congr_deriv ?_
        simp [glide, cross_apply]
      · refine h1.congr_deriv ?_
        simp [glide, cross_apply]
        ring
      · refine (hasDerivWithinAt_const r _ (0 : ℝ)).congr_deriv ?_
        simp [glide, cross_apply]) k le_rfl 1
  have e : X k 7 = X k (Fin.natAdd 6 (1 : Fin 3)) := rfl
  rw [e, h]
  simp only [glide_sum]
  simp [glide, cross_apply]
  ring

end Nmpc.Problems
