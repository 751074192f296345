import Verif.FMPC.OptimalProps
import Verif.CGMRES.OdeOrder
import Mathlib.Topology.Sequences
import Mathlib.Topology.MetricSpace.ProperSpace

/-!
# FMPC: limits of sequences of approximate solutions (helpers for C147)
-/

set_option linter.unusedSectionVars false

namespace Nmpc.FMPC

open DDP (FDeriv LDeriv VDeriv timeAt)
open Matrix Finset Filter Topology

/-- Bounded sequences in a countable product of proper spaces have a subsequence that converges in each component. -/
theorem subseq_pi {E : ℕ → Type} [∀ i, NormedAddCommGroup (E i)] [∀ i, ProperSpace (E i)] {B : ℕ → ℝ} {f : ℕ → (i : ℕ) → E i}
    (h : ∀ k i, ‖f k i‖ ≤ B i) : ∃ (a : (i : ℕ) → E i) (φ : ℕ → ℕ), StrictMono φ ∧ ∀ i, Tendsto (fun k => f (φ k) i) atTop (𝓝 (a i)) := by
  have hK : IsCompact (Set.univ.pi fun i => Metric.closedBall (0 : E i) (B i)) :=
    isCompact_univ_pi fun i => isCompact_closedBall _ _
  obtain ⟨a, -, φ, hφ, ht⟩ := hK.tendsto_subseq (x := f) fun k i _ => by simpa using h k i
  exact ⟨a, φ, hφ, fun i => (tendsto_pi_nhds.1 ht) i⟩

/-- The tolerances `1 / (k + 1)` along a subsequence tend to zero. -/
theorem tol_tendsto {φ : ℕ → ℕ} (h : StrictMono φ) : Tendsto (fun k => 1 / ((φ k : ℝ) + 1)) atTop (𝓝 0) :=
  tendsto_one_div_add_atTop_nhds_zero_nat.comp h.tendsto_atTop

section
variable {n : ℕ} {md pd : ℝ → ℕ} {P : Callbacks n md pd} {t0 dt : ℝ} {x0 : Vec n ℝ} {N : ℕ}

/-- A trajectory that satisfies the constraints of the optimal control problem up to `tol` per component. -/
structure NearFeasible (P : Callbacks n md pd) (t0 dt : ℝ) (x0 : Vec n ℝ) (N : ℕ) (tol : ℝ) (x : ℕ → Vec n ℝ)
    (u : (i : ℕ) → Vec (md (timeAt t0 dt i)) ℝ) : Prop where
  init : ∀ j, |x0 j - x 0 j| ≤ tol
  dyn : ∀ i < N, ∀ j, |P.stateEq (timeAt t0 dt i) (x i) (u i) j - x (i + 1) j| ≤ tol
  ineq : ∀ i < N, ∀ j, P.ineqConst (timeAt t0 dt i) (x i) (u i) j ≤ tol

theorem NearFeasible.mono {tol tol' : ℝ} {x : ℕ → Vec n ℝ} {u : (i : ℕ) → Vec (md (timeAt t0 dt i)) ℝ}
    (h : NearFeasible P t0 dt x0 N tol x u) (ht : tol ≤ tol') : NearFeasible P t0 dt x0 N tol' x u :=
  ⟨fun j => (h.init j).trans ht, fun i hi j => (h.dyn i hi j).trans ht, fun i hi j => (h.ineq i hi j).trans ht⟩

/-- What the compactness arguments need of a problem: dynamics and constraint functions are continuous on the time grid, and for
states in a bounded set the constraints (relaxed to `≤ 1`) bound the inputs. -/
structure CompactInputs (P : Callbacks n md pd) (t0 dt : ℝ) (N : ℕ) : Prop where
  dyn : ∀ i < N, Continuous fun q : Vec n ℝ × Vec (md (timeAt t0 dt i)) ℝ => P.stateEq (timeAt t0 dt i) q.1 q.2
  ineq : ∀ i < N, Continuous fun q : Vec n ℝ × Vec (md (timeAt t0 dt i)) ℝ => P.ineqConst (timeAt t0 dt i) q.1 q.2
  bounded : ∀ r : ℝ, ∃ R : ℝ, ∀ i < N, ∀ x (u : Vec (md (timeAt t0 dt i)) ℝ), ‖x‖ ≤ r →
    (∀ j, P.ineqConst (timeAt t0 dt i) x u j ≤ 1) → ‖u‖ ≤ R

theorem vec_le {k : ℕ} {a b : Vec k ℝ} {e : ℝ} (he : 0 ≤ e) (h : ∀ j, |a j - b j| ≤ e) : ‖b‖ ≤ ‖a‖ + e := by
  have h1 : ‖a - b‖ ≤ e := (pi_norm_le_iff_of_nonneg he).2 fun j => by simpa using h j
  calc ‖b‖ = ‖a - (a - b)‖ := by rw [sub_sub_cancel]
    _ ≤ ‖a‖ + ‖a - b‖ := norm_sub_le _ _
    _ ≤ _ := by linarith

/-- Nearly feasible trajectories are bounded. -/
theorem CompactInputs.bounds (h : CompactInputs P t0 dt N) (x0 : Vec n ℝ) : ∃ B : ℝ, ∀ (x : ℕ → Vec n ℝ)
    (u : (i : ℕ) → Vec (md (timeAt t0 dt i)) ℝ), NearFeasible P t0 dt x0 N 1 x u →
    (∀ i ≤ N, ‖x i‖ ≤ B) ∧ ∀ i < N, ‖u i‖ ≤ B := by
  suffices hs : ∀ k ≤ N, ∃ B : ℝ, ∀ (x : ℕ → Vec n ℝ)
      (u : (i : ℕ) → Vec (md (timeAt t0 dt i)) ℝ), NearFeasible P t0 dt x0 N 1 x u →
      (∀ i ≤ k, ‖x i‖ ≤ B) ∧ ∀ i < k, ‖u i‖ ≤ B from hs N le_rfl
  intro k
  induction k with
  | zero =>
    refine fun _ => ⟨‖x0‖ + 1, fun x u hx => ⟨fun i hi => ?_, fun i hi => absurd hi (Nat.not_lt_zero _)⟩⟩
    rw [Nat.le_zero.1 hi]
    exact vec_le zero_le_one hx.init
  | succ k ih =>
    intro hk
    obtain ⟨B, hB⟩ := ih (by omega)
    obtain ⟨R, hR⟩ := h.bounded B
    obtain ⟨M, -, hM⟩ := Cgmres.OdeOrder.bounded_on_ball (h.dyn k (by omega)) (max B R)
    refine ⟨max (max B R) (M + 1), fun x u hx => ?_⟩
    obtain ⟨h1, h2⟩ := hB x u hx
    have h3 : ‖u k‖ ≤ R := hR k (by omega) _ _ (h1 k le_rfl) (hx.ineq k (by omega))
    constructor
    · intro i hi
      rcases Nat.lt_or_ge k i with hki | hki
      · obtain rfl : i = k + 1 := by omega
        have h4 := hM (x k, u k) (by
          rw [Prod.norm_mk]
          exact max_le_max (h1 k le_rfl) h3)
        have h5 := vec_le zero_le_one (hx.dyn k (by omega))
        exact (h5.trans (by simpa using h4)).trans (le_max_right _ _)
      · exact (h1 i hki).trans ((le_max_left _ _).trans (le_max_left _ _))
    · intro i hi
      rcases Nat.lt_or_ge i k with hki | hki
      · exact (h2 i hki).trans ((le_max_left _ _).trans (le_max_left _ _))
      · obtain rfl : i = k := by omega
        exact h3.trans ((le_max_right _ _).trans (le_max_left _ _))

/-- Closeness in each component from convergence. -/
theorem eventually_near {k : ℕ} {f : ℕ → Vec k ℝ} {a : Vec k ℝ} {η : ℝ} (hη : 0 < η) (h : Tendsto f atTop (𝓝 a)) :
    ∀ᶠ l in atTop, ‖f l - a‖ ≤ η := by
  have := (Metric.tendsto_nhds.1 h) η hη
  filter_upwards [this] with l hl
  rw [dist_eq_norm] at hl
  exact hl.le

/-- **Nearly feasible trajectories are near feasible trajectories**: with continuous dynamics and constraints and bounded inputs,
for each `η > 0` there is a tolerance below which each trajectory that satisfies the constraints up to the tolerance is within `η`
of one that satisfies them exactly. -/
theorem CompactInputs.near (h : CompactInputs P t0 dt N) (x0 : Vec n ℝ) {η : ℝ} (hη : 0 < η) : ∃ ε, 0 < ε ∧ ∀ (x : ℕ → Vec n ℝ)
    (u : (i : ℕ) → Vec (md (timeAt t0 dt i)) ℝ), NearFeasible P t0 dt x0 N ε x u →
    ∃ y z, FeasibleTraj P t0 dt x0 N y z ∧ (∀ i ≤ N, ‖x i - y i‖ ≤ η) ∧ ∀ i < N, ‖u i - z i‖ ≤ η := by
  by_contra hno
  push Not at hno
  obtain ⟨B, hB⟩ := h.bounds x0
  have hpos : ∀ k : ℕ, (0 : ℝ) < 1 / ((k : ℝ) + 1) := fun k => by positivity
  choose x u hxu hfar using fun k : ℕ => hno _ (hpos k)
  have hle1 : ∀ k : ℕ, 1 / ((k : ℝ) + 1) ≤ 1 := fun k => by
    rw [div_le_one (by positivity)]
    have : (0 : ℝ) ≤ k := Nat.cast_nonneg k
    linarith
  have hb := fun k => hB (x k) (u k) ((hxu k).mono (hle1 k))
  set f : ℕ → (i : ℕ) → Vec n ℝ × Vec (md (timeAt t0 dt i)) ℝ := fun k i =>
    (if i ≤ N then x k i else 0, if i < N then u k i else 0) with hf
  have hB0 : 0 ≤ B := (norm_nonneg _).trans ((hb 0).1 0 (Nat.zero_le _))
  obtain ⟨a, φ, hφ, ha⟩ := subseq_pi (B := fun _ => B) (f := f) (by
    intro k i
    rw [hf, Prod.norm_mk]
    refine max_le ?_ ?_
    · split
      · exact (hb k).1 i ‹_›
      · simpa using hB0
    · split
      · exact (hb k).2 i ‹_›
      · simpa using hB0)
  have hx : ∀ i ≤ N, Tendsto (fun k => x (φ k) i) atTop (𝓝 (a i).1) := by
    intro i hi
    have := ((continuous_fst.tendsto _).comp (ha i))
    simpa only [Function.comp_def, hf, if_pos hi] using this
  have hu : ∀ i < N, Tendsto (fun k => u (φ k) i) atTop (𝓝 (a i).2) := by
    intro i hi
    have := ((continuous_snd.tendsto _).comp (ha i))
    simpa only [Function.comp_def, hf, if_pos hi] using this
  have htol := tol_tendsto hφ
  have hpair : ∀ i < N, Tendsto (fun k => (x (φ k) i, u (φ k) i)) atTop (𝓝 (a i)) := fun i hi => by
    have := (hx i hi.le).prodMk_nhds (hu i hi)
    simpa using this
  have hlim : ∀ {k : ℕ} {g : ℕ → Vec k ℝ} {c : Vec k ℝ}, Tendsto g atTop (𝓝 c) → ∀ j, Tendsto (fun l => g l j) atTop (𝓝 (c j)) :=
    fun h j => (tendsto_pi_nhds.1 h) j
  have hzero : ∀ {g : ℕ → ℝ} {c : ℝ}, Tendsto g atTop (𝓝 c) → (∀ l, |g l| ≤ 1 / ((φ l : ℝ) + 1)) → c = 0 := by
    intro g c hg hl
    have := le_of_tendsto_of_tendsto' hg.abs htol hl
    exact abs_eq_zero.1 (le_antisymm this (abs_nonneg _))
  have hfeas : FeasibleTraj P t0 dt x0 N (fun i => (a i).1) (fun i => (a i).2) := by
    refine ⟨?_, ?_, ?_⟩
    · funext j
      have := hzero ((tendsto_const_nhds (x := x0 j)).sub (hlim (hx 0 (Nat.zero_le _)) j)) fun l => (hxu (φ l)).init j
      linarith
    · intro i hi
      funext j
      have h1 := ((h.dyn i hi).tendsto (a i)).comp (hpair i hi)
      have := hzero ((hlim h1 j).sub (hlim (hx (i + 1) hi) j)) fun l => (hxu (φ l)).dyn i hi j
      linarith
    · intro i hi j
      have h1 := ((h.ineq i hi).tendsto (a i)).comp (hpair i hi)
      exact le_of_tendsto_of_tendsto' (hlim h1 j) htol fun l => (hxu (φ l)).ineq i hi j
  have hev : ∀ᶠ l in atTop, (∀ i ∈ Set.Iic N, ‖x (φ l) i - (a i).1‖ ≤ η) ∧ ∀ i ∈ Set.Iio N, ‖u (φ l) i - (a i).2‖ ≤ η :=
    ((Set.finite_Iic N).eventually_all.2 fun i hi => eventually_near hη (hx i hi)).and
      ((Set.finite_Iio N).eventually_all.2 fun i hi => eventually_near hη (hu i hi))
  obtain ⟨l, h1, h2⟩ := hev.exists
  obtain ⟨i, hi, hgt⟩ := hfar (φ l) _ _ hfeas h1
  exact absurd (h2 i hi) (not_le.2 hgt)

end

end Nmpc.FMPC
