import Verif.Problems.Refs
import Verif.Problems.Ddp
import Mathlib.Analysis.Calculus.Deriv.Add
import Mathlib.Analysis.Calculus.Deriv.Shift

/-!
# C81: the reference functions of the walking and of the jumping example
-/

namespace Nmpc.Problems

open Set Filter Topology

/-! ## Gluing -/

/-- Two differentiable functions that agree to first order at `c`, glued at `c`. -/
theorem hasDerivAt_glue {g h g' h' : ℝ → ℝ} {c : ℝ} (hg : ∀ t, HasDerivAt g (g' t) t) (hh : ∀ t, HasDerivAt h (h' t) t)
    (h0 : g c = h c) (h1 : g' c = h' c) (t : ℝ) :
    HasDerivAt (fun t => if t < c then g t else h t) (if t < c then g' t else h' t) t := by
  rcases lt_trichotomy t c with hlt | rfl | hgt
  · rw [if_pos hlt]
    refine (hg t).congr_of_eventuallyEq ?_
    filter_upwards [Iio_mem_nhds hlt] with s hs
    exact if_pos hs
  · rw [if_neg (lt_irrefl _)]
    have a : HasDerivWithinAt (fun s => if s < t then g s else h s) (h' t) (Iic t) t := by
      refine ((hg t).hasDerivWithinAt.congr_deriv h1).congr ?_ ?_
      · intro s hs
        rcases eq_or_lt_of_le (show s ≤ t from hs) with rfl | hs
        · rw [if_neg (lt_irrefl _), h0]
        · exact if_pos hs
      · rw [if_neg (lt_irrefl _), h0]
    have b : HasDerivWithinAt (fun s => if s < t then g s else h s) (h' t) (Ici t) t := by
      refine (hh t).hasDerivWithinAt.congr ?_ ?_
      · intro s hs
        exact if_neg (not_lt.2 hs)
      · exact if_neg (lt_irrefl _)
    have := a.union b
    rwa [Iic_union_Ici, hasDerivWithinAt_univ] at this
  · rw [if_neg (not_lt.2 hgt.le)]
    refine (hh t).congr_of_eventuallyEq ?_
    filter_upwards [Ioi_mem_nhds hgt] with s hs
    exact if_neg (not_lt.2 (le_of_lt hs))

theorem continuous_glue {g h : ℝ → ℝ} {c : ℝ} (hg : Continuous g) (hh : Continuous h) (h0 : g c = h c) :
    Continuous fun t => if t < c then g t else h t := by
  refine continuous_if ?_ ?_ ?_
  · intro a ha
    have : a = c := by
      have := frontier_lt_subset_eq (f := fun t : ℝ => t) (g := fun _ => c) continuous_id continuous_const ha
      exact this
    rw [this, h0]
  · exact hg.continuousOn
  · exact hh.continuousOn

/-! ## The minimum-jerk function -/

/-- The first derivative of `minJerk`. -/
def minJerkVel (t : ℝ) : ℝ := 30 * (t * t) * ((1 - t) * (1 - t))

theorem hasDerivAt_minJerk (t : ℝ) : HasDerivAt (minJerk : ℝ → ℝ) (minJerkVel t) t := by
  have h := (((((hasDerivAt_id t).pow 5).const_mul 6).add (((hasDerivAt_id t).pow 4).const_mul (-15))).add
    (((hasDerivAt_id t).pow 3).const_mul 10))
  refine (h.congr_deriv ?_).congr_of_eventuallyEq (Eventually.of_forall fun s => ?_)
  · simp only [minJerkVel, id]
    norm_num
    ring
  · simp only [minJerk, lit_real, Pi.add_apply, Pi.pow_apply, id]
    push_cast
    ring

theorem hasDerivAt_minJerkVel (t : ℝ) : HasDerivAt minJerkVel (minJerkSecondDeriv t) t := by
  have h := (((((hasDerivAt_id t).pow 4).const_mul 30).add (((hasDerivAt_id t).pow 3).const_mul (-60))).add
    (((hasDerivAt_id t).pow 2).const_mul 30))
  refine (h.congr_deriv ?_).congr_of_eventuallyEq (Eventually.of_forall fun s => ?_)
  · simp only [minJerkSecondDeriv, lit_real, id]
    norm_num
    ring
  · simp only [minJerkVel, Pi.add_apply, Pi.pow_apply, id]
    ring

theorem minJerk_mem {t : ℝ} (h0 : 0 ≤ t) (h1 : t ≤ 1) : 0 ≤ (minJerk t : ℝ) ∧ (minJerk t : ℝ) ≤ 1 := by
  have e : (minJerk t : ℝ) = t ^ 3 * (6 * (t - 5 / 4) ^ 2 + 5 / 8) := by
    simp only [minJerk, lit_real]; push_cast; ring
  have e' : 1 - (minJerk t : ℝ) = (1 - t) ^ 3 * (6 * ((1 - t) - 5 / 4) ^ 2 + 5 / 8) := by
    simp only [minJerk, lit_real]; push_cast; ring
  constructor
  · rw [e]; positivity
  · have : 0 ≤ 1 - (minJerk t : ℝ) := by
      rw [e']
      have : 0 ≤ 1 - t := by linarith
      positivity
    linarith

theorem minJerkSecondDeriv_le {t : ℝ} (h0 : 0 ≤ t) (h1 : t ≤ 1) : |(minJerkSecondDeriv t : ℝ)| ≤ 289 / 50 := by
  have key : ∀ s : ℝ, s ≤ 1 → 120 * s ^ 3 - 180 * s ^ 2 + 60 * s ≤ 289 / 50 := by
    intro s hs
    have h : 0 ≤ (s - 2113 / 10000) ^ 2 * (1 - s) := mul_nonneg (sq_nonneg _) (by linarith)
    nlinarith [sq_nonneg (s - 2113 / 10000), sq_nonneg s]
  have e : (minJerkSecondDeriv t : ℝ) = 120 * t ^ 3 - 180 * t ^ 2 + 60 * t := by
    simp only [minJerkSecondDeriv, lit_real]; push_cast; ring
  rw [abs_le]
  constructor
  · have := key (1 - t) (by linarith)
    rw [e]
    nlinarith
  · rw [e]; exact key t h1

/-! ## The height of the centre of mass -/

/-- The velocity that belongs to `cogZ`. -/
noncomputable def Bipedal.cogVel (t : ℝ) : ℝ :=
  if t < 7 then 0 else if t < 8 then -(7 / 10) * minJerkVel (t - 7) else if t < 12 then 0
  else if t < 13 then 7 / 10 * minJerkVel (t - 12) else 0

theorem cogZ_fst (t : ℝ) : (Bipedal.cogZ t).1 =
    if t < 7 then 1 else if t < 8 then -(7 / 10) * minJerk (t - 7) + 1 else if t < 12 then 3 / 10
    else if t < 13 then 7 / 10 * minJerk (t - 12) + 3 / 10 else 1 := by
  simp only [Bipedal.cogZ, lit_real, Bipedal.zHigh, Bipedal.zLow, Rat.cast_ofNat]
  split_ifs <;> norm_num

theorem cogZ_snd (t : ℝ) : (Bipedal.cogZ t).2 =
    if t < 7 then 0 else if t < 8 then -(7 / 10) * minJerkSecondDeriv (t - 7) else if t < 12 then 0
    else if t < 13 then 7 / 10 * minJerkSecondDeriv (t - 12) else 0 := by
  simp only [Bipedal.cogZ, lit_real, Bipedal.zHigh, Bipedal.zLow, Rat.cast_ofNat]
  split_ifs <;> norm_num

theorem hasDerivAt_cog (t : ℝ) : HasDerivAt (fun t => (Bipedal.cogZ t).1) (Bipedal.cogVel t) t := by
  have e : (fun t => (Bipedal.cogZ t).1) = fun t => if t < 7 then 1 else if t < 8 then -(7 / 10) * minJerk (t - 7) + 1
      else if t < 12 then 3 / 10 else if t < 13 then 7 / 10 * minJerk (t - 12) + 3 / 10 else 1 := funext cogZ_fst
  rw [e]
  have m7 : ∀ t : ℝ, HasDerivAt (fun t : ℝ => -(7 / 10) * (minJerk (t - 7) : ℝ) + 1) (-(7 / 10) * minJerkVel (t - 7)) t :=
    fun t => ((((hasDerivAt_minJerk (t - 7)).comp_sub_const t 7).const_mul _).add_const _)
  have m12 : ∀ t : ℝ, HasDerivAt (fun t : ℝ => 7 / 10 * (minJerk (t - 12) : ℝ) + 3 / 10) (7 / 10 * minJerkVel (t - 12)) t :=
    fun t => ((((hasDerivAt_minJerk (t - 12)).comp_sub_const t 12).const_mul _).add_const _)
  have c : ∀ a t : ℝ, HasDerivAt (fun _ : ℝ => a) ((fun _ : ℝ => (0 : ℝ)) t) t := fun a t => hasDerivAt_const t a
  unfold Bipedal.cogVel
  refine hasDerivAt_glue (c _) (hasDerivAt_glue m7 (hasDerivAt_glue (c _) (hasDerivAt_glue m12 (c _) ?_ ?_) ?_ ?_) ?_ ?_) ?_ ?_ t
  all_goals norm_num [minJerk, minJerkVel]

theorem hasDerivAt_cogVel (t : ℝ) : HasDerivAt Bipedal.cogVel (Bipedal.cogZ t).2 t := by
  rw [cogZ_snd]
  have m7 : ∀ t : ℝ, HasDerivAt (fun t : ℝ => -(7 / 10) * (minJerkVel (t - 7) : ℝ)) (-(7 / 10) * minJerkSecondDeriv (t - 7)) t :=
    fun t => (((hasDerivAt_minJerkVel (t - 7)).comp_sub_const t 7).const_mul _)
  have m12 : ∀ t : ℝ, HasDerivAt (fun t : ℝ => 7 / 10 * (minJerkVel (t - 12) : ℝ)) (7 / 10 * minJerkSecondDeriv (t - 12)) t :=
    fun t => (((hasDerivAt_minJerkVel (t - 12)).comp_sub_const t 12).const_mul _)
  have c : ∀ a t : ℝ, HasDerivAt (fun _ : ℝ => a) ((fun _ : ℝ => (0 : ℝ)) t) t := fun a t => hasDerivAt_const t a
  unfold Bipedal.cogVel
  refine hasDerivAt_glue (c _) (hasDerivAt_glue m7 (hasDerivAt_glue (c _) (hasDerivAt_glue m12 (c _) ?_ ?_) ?_ ?_) ?_ ?_) ?_ ?_ t
  all_goals norm_num [minJerkVel, minJerkSecondDeriv]

theorem continuous_minJerkSecondDeriv : Continuous (minJerkSecondDeriv : ℝ → ℝ) := by
  unfold minJerkSecondDeriv
  simp only [lit_real]
  fun_prop

theorem continuous_cogAcc : Continuous fun t => (Bipedal.cogZ t).2 := by
  have e : (fun t => (Bipedal.cogZ t).2) = _ := funext cogZ_snd
  rw [e]
  have m : ∀ a c : ℝ, Continuous fun t : ℝ => a * (minJerkSecondDeriv (t - c) : ℝ) := fun a c =>
    continuous_const.mul (continuous_minJerkSecondDeriv.comp (continuous_id.sub continuous_const))
  refine continuous_glue continuous_const (continuous_glue (m _ _) (continuous_glue continuous_const
    (continuous_glue (m _ _) continuous_const ?_) ?_) ?_) ?_
  all_goals norm_num [minJerkSecondDeriv]

theorem cogPos_mem (t : ℝ) : 3 / 10 ≤ (Bipedal.cogZ t).1 ∧ (Bipedal.cogZ t).1 ≤ 1 := by
  rw [cogZ_fst]
  split_ifs with h1 h2 h3 h4
  · norm_num
  · obtain ⟨a, b⟩ := minJerk_mem (t := t - 7) (by linarith) (by linarith)
    constructor <;> linarith
  · norm_num
  · obtain ⟨a, b⟩ := minJerk_mem (t := t - 12) (by linarith) (by linarith)
    constructor <;> linarith
  · norm_num

theorem cogAcc_mem (t : ℝ) : |(Bipedal.cogZ t).2| ≤ 2023 / 500 := by
  rw [cogZ_snd]
  split_ifs with h1 h2 h3 h4
  · norm_num
  · have := minJerkSecondDeriv_le (t := t - 7) (by linarith) (by linarith)
    rw [abs_mul, abs_neg, abs_of_pos (by norm_num : (0 : ℝ) < 7 / 10)]
    linarith
  · norm_num
  · have := minJerkSecondDeriv_le (t := t - 12) (by linarith) (by linarith)
    rw [abs_mul, abs_of_pos (by norm_num : (0 : ℝ) < 7 / 10)]
    linarith
  · norm_num

/-! ## C81 -/

/-- **C81** The squared natural frequency of the walking example comes from a twice continuously differentiable height `z` of the
centre of mass: there are functions `z`, `v`, `a` with `z' = v`, `v' = a` at every time, `a` continuous, the height stays between
0.3 m and 1 m, the acceleration never reaches gravity, and `omega2_func t = (a + g) / z`; it is therefore continuous and stays between
5.7 and 46.3. -/
theorem C81_omega2 : ∃ z v a : ℝ → ℝ, (∀ t, HasDerivAt z (v t) t ∧ HasDerivAt v (a t) t) ∧ Continuous a ∧
    (∀ t, 0.3 ≤ z t ∧ z t ≤ 1) ∧ (∀ t, |a t| < 9.80665) ∧
    (∀ t, t + 1e-6 ≤ 7 → z t = 1) ∧ (∀ t, 8 ≤ t + 1e-6 → t + 1e-6 ≤ 12 → z t = 0.3) ∧ (∀ t, 13 ≤ t + 1e-6 → z t = 1) ∧
    (∀ t, Bipedal.omega2Func t = (a t + 9.80665) / z t) ∧ Continuous Bipedal.omega2Func ∧
    ∀ t, 5.7 < Bipedal.omega2Func t ∧ Bipedal.omega2Func t < 46.3 := by
  have hg : (grav : ℝ) = 9.80665 := by norm_num [grav]
  have he : epsT = 1e-6 := by norm_num [epsT]
  have hz : ∀ t, 3 / 10 ≤ (Bipedal.cogZ t).1 ∧ (Bipedal.cogZ t).1 ≤ 1 := cogPos_mem
  have hform : ∀ t, Bipedal.omega2Func t = ((Bipedal.cogZ (t + 1e-6)).2 + 9.80665) / (Bipedal.cogZ (t + 1e-6)).1 := by
    intro t
    simp only [Bipedal.omega2Func, hg, he]
  have hcz : Continuous fun t => (Bipedal.cogZ t).1 :=
    continuous_iff_continuousAt.2 fun t => (hasDerivAt_cog t).continuousAt
  have hsh : Continuous fun t : ℝ => t + 1e-6 := by fun_prop
  refine ⟨fun t => (Bipedal.cogZ (t + 1e-6)).1, fun t => Bipedal.cogVel (t + 1e-6), fun t => (Bipedal.cogZ (t + 1e-6)).2,
    fun t => ⟨?_, ?_⟩, continuous_cogAcc.comp hsh, fun t => ?_, fun t => ?_, ?_, ?_, ?_, hform, ?_, fun t => ?_⟩
  · exact (hasDerivAt_cog (t + 1e-6)).comp_add_const t 1e-6
  · exact (hasDerivAt_cogVel (t + 1e-6)).comp_add_const t 1e-6
  · have := hz (t + 1e-6)
    norm_num at this ⊢
    exact this
  · have := cogAcc_mem (t + 1e-6)
    norm_num at this ⊢
    linarith
  · intro t ht
    show (Bipedal.cogZ (t + 1e-6)).1 = 1
    rw [cogZ_fst]
    rcases eq_or_lt_of_le ht with h | h
    · rw [h]; norm_num [minJerk]
    · rw [if_pos h]
  · intro t ht ht'
    show (Bipedal.cogZ (t + 1e-6)).1 = 0.3
    rw [cogZ_fst, if_neg (by linarith), if_neg (by linarith)]
    rcases eq_or_lt_of_le ht' with h | h
    · rw [h]; norm_num [minJerk]
    · rw [if_pos h]; norm_num
  · intro t ht
    show (Bipedal.cogZ (t + 1e-6)).1 = 1
    rw [cogZ_fst, if_neg (by linarith), if_neg (by linarith), if_neg (by linarith), if_neg (by linarith)]
  · have e : Bipedal.omega2Func = fun t => ((Bipedal.cogZ (t + 1e-6)).2 + 9.80665) / (Bipedal.cogZ (t + 1e-6)).1 := funext hform
    rw [e]
    refine ((continuous_cogAcc.comp hsh).add continuous_const).div (hcz.comp hsh) fun t => ?_
    have := (hz (t + 1e-6)).1
    show (Bipedal.cogZ (t + 1e-6)).1 ≠ 0
    linarith
  · rw [hform]
    obtain ⟨l, u⟩ := hz (t + 1e-6)
    have a := abs_le.1 (cogAcc_mem (t + 1e-6))
    have p : 0 < (Bipedal.cogZ (t + 1e-6)).1 := by linarith
    rw [lt_div_iff₀ p, div_lt_iff₀ p]
    obtain ⟨a1, a2⟩ := a
    constructor
    · norm_num at a1 ⊢; nlinarith
    · norm_num at a2 ⊢; nlinarith

/-- **C81** The reference of the zero-moment point: zero before 1.5 s and from 18.5 s on, in between 0.15 m to one side, changing
the side at every whole second. -/
theorem C81_refZmp (t : ℝ) :
    (t + 1e-6 ≤ 1.5 → Bipedal.refZmpFunc t = 0) ∧ (18.5 ≤ t + 1e-6 → Bipedal.refZmpFunc t = 0) ∧
    ∀ k : ℕ, 1.5 < t + 1e-6 → t + 1e-6 < 18.5 → (k : ℝ) ≤ t + 1e-6 → t + 1e-6 < k + 1 →
      Bipedal.refZmpFunc t = if k % 2 = 1 then 0.15 else -0.15 := by
  have he : epsT = 1e-6 := by norm_num [epsT]
  have h1 : ((lit (3 / 2) : ℝ)) = 1.5 := by norm_num
  have h2 : Bipedal.endT - 1.5 = 18.5 := by norm_num [Bipedal.endT]
  refine ⟨fun h => ?_, fun h => ?_, fun k a b c d => ?_⟩
  · simp only [Bipedal.refZmpFunc, he, h1, h2]
    rw [if_pos (Or.inl h)]
  · simp only [Bipedal.refZmpFunc, he, h1, h2]
    rw [if_pos (Or.inr h)]
  · simp only [Bipedal.refZmpFunc, he, h1, h2]
    rw [if_neg (by push Not; exact ⟨a, b⟩)]
    have hk : 1 ≤ k := by
      by_contra hk
      have : k = 0 := by omega
      subst this
      norm_num at a d
      linarith
    have hf : ⌊(t + 1e-6 - (lit 1 : ℝ)) / (lit 1 : ℝ)⌋ = ((k - 1 : ℕ) : ℤ) := by
      rw [Int.floor_eq_iff]
      have hk' : (((k - 1 : ℕ) : ℤ) : ℝ) = (k : ℝ) - 1 := by
        rw [Int.cast_natCast, Nat.cast_sub hk, Nat.cast_one]
      rw [hk']
      simp only [lit_real, Rat.cast_one, div_one]
      constructor <;> linarith
    rw [hf]
    have : (((k - 1 : ℕ) : ℤ).tmod 2 = 0) ↔ k % 2 = 1 := by
      rw [Int.tmod_eq_emod_of_nonneg (by positivity)]
      omega
    simp only [this]
    norm_num

/-- **C81** The offset `epsilon_t` does what its comment says: a time that is less than `1e-6` away from the sampling time `k * 0.01`
(as an accumulated `current_t += dt` is) gives the reference of that sample. -/
theorem C81_refZmp_sampled (k : ℕ) (t : ℝ) (ht : |t - k * 0.01| < 1e-6) :
    Bipedal.refZmpFunc t =
      if k < 150 ∨ 1850 ≤ k then 0 else if k / 100 % 2 = 1 then 0.15 else -0.15 := by
  obtain ⟨l, u⟩ := abs_lt.1 ht
  obtain ⟨z1, z2, z3⟩ := C81_refZmp t
  split_ifs with h1 h2
  · rcases h1 with h | h
    · have : (k : ℝ) ≤ 149 := by exact_mod_cast (by omega : k ≤ 149)
      exact z1 (by norm_num at u ⊢; linarith)
    · have : (1850 : ℝ) ≤ k := by exact_mod_cast h
      exact z2 (by norm_num at l ⊢; linarith)
  all_goals
    push Not at h1
    have e1 : (150 : ℝ) ≤ k := by exact_mod_cast h1.1
    have e2 : (k : ℝ) ≤ 1849 := by exact_mod_cast (by omega : k ≤ 1849)
    have d1 : ((k / 100 : ℕ) : ℝ) * 100 ≤ k := by exact_mod_cast Nat.div_mul_le_self k 100
    have d2 : (k : ℝ) + 1 ≤ (((k / 100 : ℕ) : ℝ) + 1) * 100 := by
      exact_mod_cast (by omega : k + 1 ≤ (k / 100 + 1) * 100)
    have := z3 (k / 100) (by norm_num at l ⊢; linarith) (by norm_num at u ⊢; linarith) (by norm_num at l ⊢; linarith)
      (by norm_num at u ⊢; linarith)
    rw [this]
  · rw [if_pos h2]
  · rw [if_neg h2]

/-- **C81** The same for the number of contacts and the reference position of the example with vertical motion (`dt = 0.01`). -/
theorem C81_vertical_sampled (k : ℕ) (t : ℝ) (ht : |t - k * 0.01| < 1e-6) :
    Vertical.inputDim t = (if 200 ≤ k ∧ k < 300 then 2 else if 450 ≤ k ∧ k < 500 then 0 else 1) ∧
    Vertical.refPosFunc t = if k < 800 then 1 else 0 := by
  obtain ⟨l, u⟩ := abs_lt.1 ht
  have ge : ∀ m : ℕ, (m : ℝ) * 0.01 < t + 1e-6 ↔ m ≤ k := by
    intro m
    constructor
    · intro h
      by_contra hc
      have : (k : ℝ) + 1 ≤ m := by exact_mod_cast (by omega : k + 1 ≤ m)
      norm_num at h u
      linarith
    · intro h
      have : (m : ℝ) ≤ k := by exact_mod_cast h
      norm_num at l ⊢
      linarith
  have lt : ∀ m : ℕ, t + 1e-6 < (m : ℝ) * 0.01 ↔ k < m := by
    intro m
    constructor
    · intro h
      by_contra hc
      have := (ge m).2 (by omega)
      linarith
    · intro h
      have : (k : ℝ) + 1 ≤ m := by exact_mod_cast (by omega : k + 1 ≤ m)
      norm_num at u ⊢
      linarith
  have g2 := ge 200
  have l3 := lt 300
  have g45 := ge 450
  have l5 := lt 500
  have l8 := lt 800
  norm_num at g2 l3 g45 l5 l8
  constructor
  · simp only [Vertical.inputDim, lit_real]
    norm_num
    simp only [g2, l3, g45, l5]
  · simp only [Vertical.refPosFunc, epsT, lit_real]
    norm_num
    simp only [l8]

/-- **C81** The linear dynamics of the walking example can be brought from every state to every other one in two samples, at all
times, although the matrices change with the time: the controllability determinant is `dt ^ 3 * omega2 * omega2' > 0`. -/
theorem C81_reachable (dt : ℝ) (hdt : dt ≠ 0) (t t' : ℝ) (x y : Vec 2 ℝ) :
    ∃ u u' : Vec 1 ℝ, (Bipedal.testProblem.ddp dt).stateEq t' ((Bipedal.testProblem.ddp dt).stateEq t x u) u' = y := by
  obtain ⟨z, v, a, -, -, -, -, -, -, -, -, -, hb⟩ := C81_omega2
  have hw := (hb t).1
  have hw' := (hb t').1
  have hp : 0 < Bipedal.omega2Func t := lt_trans (by norm_num) hw
  have hp' : 0 < Bipedal.omega2Func t' := lt_trans (by norm_num) hw'
  clear hw hw' hb
  have step : ∀ (s : ℝ) (x : Vec 2 ℝ) (u : Vec 1 ℝ), (Bipedal.testProblem.ddp dt).stateEq s x u =
      ![(1 + 1 / 2 * dt * dt * Bipedal.omega2Func s) * x 0 + dt * x 1 - 1 / 2 * dt * dt * Bipedal.omega2Func s * u 0,
        dt * Bipedal.omega2Func s * x 0 + x 1 - dt * Bipedal.omega2Func s * u 0] := by
    intro s x u
    ext i
    fin_cases i <;>
      simp [Bipedal.ddp, Bipedal.A, Bipedal.B, Bipedal.testProblem, Bipedal.default, dotProduct, Fin.sum_univ_two] <;>
      ring
  simp only [step]
  generalize Bipedal.omega2Func t = w at *
  generalize Bipedal.omega2Func t' = w' at *
  obtain ⟨a0, ha0⟩ : ∃ a0, a0 = (1 + 1 / 2 * dt * dt * w) * x 0 + dt * x 1 := ⟨_, rfl⟩
  obtain ⟨a1, ha1⟩ : ∃ a1, a1 = dt * w * x 0 + x 1 := ⟨_, rfl⟩
  obtain ⟨r0, hr0⟩ : ∃ r0, r0 = y 0 - ((1 + 1 / 2 * dt * dt * w') * a0 + dt * a1) := ⟨_, rfl⟩
  obtain ⟨r1, hr1⟩ : ∃ r1, r1 = y 1 - (dt * w' * a0 + a1) := ⟨_, rfl⟩
  obtain ⟨al, hal⟩ : ∃ al, al = (r0 - dt / 2 * r1) / dt := ⟨_, rfl⟩
  obtain ⟨be, hbe⟩ : ∃ be, be = r1 - al * (1 + w' * dt * dt / 2) := ⟨_, rfl⟩
  have e1 : al * dt = r0 - dt / 2 * r1 := by rw [hal]; field_simp
  have hu : dt * w * (-al / (dt * w)) = -al := mul_div_cancel₀ _ (mul_ne_zero hdt hp.ne')
  have hu' : dt * w' * (-be / (dt * w')) = -be := mul_div_cancel₀ _ (mul_ne_zero hdt hp'.ne')
  refine ⟨fun _ => -al / (dt * w), fun _ => -be / (dt * w'), ?_⟩
  generalize -al / (dt * w) = u at hu
  generalize -be / (dt * w') = u' at hu'
  ext i
  fin_cases i
  · simp only [Fin.zero_eta, Matrix.cons_val_zero, Matrix.cons_val_one]
    rw [← ha0, ← ha1]
    linear_combination (-(1 + 1 / 2 * dt * dt * w') * (dt / 2) - dt) * hu - dt / 2 * hu' + dt / 2 * hbe + e1 + hr0
  · simp only [Fin.mk_one, Matrix.cons_val_zero, Matrix.cons_val_one]
    rw [← ha0, ← ha1]
    linear_combination (-(dt * w') * (dt / 2) - 1) * hu - hu' + hbe + hr1

/-! ## Concrete cases -/

/-- At 7.5 s the centre of mass is half way down, at 0.65 m, and not accelerated. -/
example : Bipedal.omega2Func (7.5 - 1e-6) = 9.80665 / 0.65 := by
  simp only [Bipedal.omega2Func, epsT, lit_real]
  rw [show (7.5 - 1e-6 + ((1 / 1000000 : ℚ) : ℝ) : ℝ) = 7.5 by norm_num, cogZ_fst, cogZ_snd]
  norm_num [minJerk, minJerkSecondDeriv, grav]

/-- The first two steps: nothing at 1.49 s, left at 1.5 s, right at 2 s. -/
example : Bipedal.refZmpFunc 1.49 = 0 ∧ Bipedal.refZmpFunc 1.5 = 0.15 ∧ Bipedal.refZmpFunc 2 = -0.15 := by
  refine ⟨?_, ?_, ?_⟩
  · rw [C81_refZmp_sampled 149 1.49 (by norm_num)]; norm_num
  · rw [C81_refZmp_sampled 150 1.5 (by norm_num)]; norm_num
  · rw [C81_refZmp_sampled 200 2 (by norm_num)]; norm_num

end Nmpc.Problems
