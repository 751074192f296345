import Verif.CGMRES.OdeOrderProps

/-!
# The discretised residual against the continuous-time optimality conditions (C118), in exact arithmetic
-/

namespace Nmpc.Cgmres

open Set OdeOrder

variable {n m : ℕ}

/-- `lam` solves the costate equation along the state trajectory `y` on each stage, with the stage input. -/
def CoHeld (F : StateEq n (n + m) ℝ) (N : ℕ) (t h : ℝ) (U : ℕ → Vec m ℝ) (y lam : ℝ → Vec n ℝ) : Prop :=
  ∀ i < N, ∀ s ∈ Icc (t + i * h) (t + (i + 1) * h),
    HasDerivWithinAt lam (F s (lam s) (Fin.append (y s) (U i))) (Icc (t + i * h) (t + (i + 1) * h)) s

theorem norm_append_le {k l : ℕ} {a : Vec k ℝ} {b : Vec l ℝ} {r : ℝ} (ha : ‖a‖ ≤ r) (hb : ‖b‖ ≤ r) : ‖(Fin.append a b : Vec (k + l) ℝ)‖ ≤ r := by
  refine (pi_norm_le_iff_of_nonneg ((norm_nonneg _).trans ha)).2 fun i => ?_
  refine Fin.addCases (fun i => ?_) (fun i => ?_) i
  · rw [Fin.append_left]; exact (norm_le_pi_norm a i).trans ha
  · rw [Fin.append_right]; exact (norm_le_pi_norm b i).trans hb

theorem append_sub_left {k l : ℕ} (a a' : Vec k ℝ) (b : Vec l ℝ) :
    (Fin.append a b : Vec (k + l) ℝ) - Fin.append a' b = Fin.append (a - a') (0 : Vec l ℝ) := by
  funext i
  refine Fin.addCases (fun i => ?_) (fun i => ?_) i <;> simp [Pi.sub_apply]

theorem norm_append_sub {k l : ℕ} (a a' : Vec k ℝ) (b : Vec l ℝ) :
    ‖(Fin.append a b : Vec (k + l) ℝ) - Fin.append a' b‖ ≤ ‖a - a'‖ := by
  rw [append_sub_left]
  exact norm_append_le le_rfl (by simp)

/-- Bound on the change of a function over an interval with bounded derivative. -/
theorem stage_lip {X : Type*} [NormedAddCommGroup X] [NormedSpace ℝ X] {y y' : ℝ → X} {a b G : ℝ}
    (hy : ∀ s ∈ Icc a b, HasDerivWithinAt y (y' s) (Icc a b) s) (hG : ∀ s ∈ Icc a b, ‖y' s‖ ≤ G) (hG0 : 0 ≤ G) {s s' : ℝ}
    (hs : s ∈ Icc a b) (hs' : s' ∈ Icc a b) : ‖y s' - y s‖ ≤ G * (b - a) := by
  refine ((convex_Icc a b).norm_image_sub_le_of_norm_hasDerivWithin_le hy hG hs hs').trans ?_
  refine mul_le_mul_of_nonneg_left ?_ hG0
  rw [Real.norm_eq_abs, abs_le]
  constructor <;> linarith [hs.1, hs.2, hs'.1, hs'.2]

theorem stage_mv {X : Type*} [NormedAddCommGroup X] [NormedSpace ℝ X] {y y' : ℝ → X} {a b G : ℝ} {φ : X}
    (hy : ∀ s ∈ Icc a b, HasDerivWithinAt y (y' s) (Icc a b) s) (hG : ∀ s ∈ Icc a b, ‖y' s - φ‖ ≤ G) (hG0 : 0 ≤ G)
    (hs : a ∈ Icc a b) (hs' : b ∈ Icc a b) : ‖y b - y a - (b - a) • φ‖ ≤ G * (b - a) := by
  have hder : ∀ s ∈ Icc a b, HasDerivWithinAt (fun s => y s - s • φ) (y' s - (1 : ℝ) • φ) (Icc a b) s := fun s hs =>
    (hy s hs).sub ((hasDerivWithinAt_id s _).smul_const φ)
  have := stage_lip hder (G := G) (fun s hs => by rw [one_smul]; exact hG s hs) hG0 hs hs'
  have e : y b - b • φ - (y a - a • φ) = y b - y a - (b - a) • φ := by module
  rwa [e] at this

theorem local_comb {X : Type*} [NormedAddCommGroup X] [NormedSpace ℝ X] {S l l0 Fx Fy : X} {h a b c : ℝ} (hh : 0 ≤ h)
    (h1 : ‖S - (l + -(h • Fx))‖ ≤ a) (h2 : ‖Fx - Fy‖ ≤ b) (h3 : ‖l - l0 - h • Fy‖ ≤ c) : ‖S - l0‖ ≤ a + h * b + c := by
  calc ‖S - l0‖ = ‖(S - (l + -(h • Fx))) - h • (Fx - Fy) + (l - l0 - h • Fy)‖ := by congr 1; module
    _ ≤ a + h * b + c := by
      refine (norm_add_le _ _).trans (add_le_add ((norm_sub_le _ _).trans (add_le_add h1 ?_)) h3)
      rw [norm_smul, Real.norm_of_nonneg hh]
      gcongr

theorem stab_comb {X : Type*} [NormedAddCommGroup X] [NormedSpace ℝ X] {S S' z l F0 F1 : X} {h a b c : ℝ} (hh : 0 ≤ h)
    (h1 : ‖S' - (z + -(h • F1))‖ ≤ a) (h2 : ‖F1 - F0‖ ≤ b) (h3 : ‖S - (l + -(h • F0))‖ ≤ c) :
    ‖S' - S‖ ≤ (a + (‖z - l‖ + h * b)) + c := by
  calc ‖S' - S‖ = ‖(S' - (z + -(h • F1))) + ((z - l) - h • (F1 - F0)) - (S - (l + -(h • F0)))‖ := by congr 1; module
    _ ≤ _ := by
      refine (norm_sub_le _ _).trans (add_le_add ((norm_add_le _ _).trans (add_le_add h1 ((norm_sub_le _ _).trans ?_))) h3)
      rw [norm_smul, Real.norm_of_nonneg hh]
      gcongr

set_option maxHeartbeats 800000 in
/-- The costates of the backward sweep against the costate trajectory. -/
theorem costate_order (P : Problem n m ℝ) (ode : Ode ℝ) (ho : ode.FirstOrder) (hf : ContDiff ℝ 1 (joint P.stateEq))
    (hF : ContDiff ℝ 1 (joint P.costateEq)) (hφ : ContDiff ℝ 1 fun p : ℝ × Vec n ℝ => P.dphidx p.1 p.2) (R T : ℝ) (hT : 0 ≤ T) :
    ∃ C δ, 0 ≤ C ∧ 0 < δ ∧ ∀ (N : ℕ) (t h : ℝ) (U : Fin N → Vec m ℝ) (y lam : ℝ → Vec n ℝ),
      0 ≤ h → h ≤ δ → N * h ≤ T → |t| ≤ R → (∀ i, ‖U i‖ ≤ R) → (∀ s ∈ Icc t (t + N * h), ‖y s‖ ≤ R ∧ ‖lam s‖ ≤ R) →
      Held P.stateEq N t h (colAt U) y → CoHeld P.costateEq N t h (colAt U) y lam →
      lam (t + N * h) = P.dphidx (t + N * h) (y (t + N * h)) →
      (∀ i ≤ N, ‖states P ode h t (y t) U i - y (t + i * h)‖ ≤ C * h) ∧
      (∀ i ≤ N, ‖costates P ode h t (y t) U i - lam (t + i * h)‖ ≤ C * h) ∧
      ∀ i < N, ‖lam (t + (i + 1) * h) - lam (t + i * h)‖ ≤ C * h := by
  obtain ⟨Cx, δx, hCx, hδx, hstate⟩ := C117_first_order ode ho P.stateEq hf R T hT
  obtain ⟨C1, δ1, hC1, hδ1, hfo⟩ := ho P.costateEq hF (R + T + 1)
  obtain ⟨K, hK, hlip⟩ := lip_ball hF (R + T + 1)
  obtain ⟨G, hG, hGb⟩ := bounded_on_ball hF.continuous (R + T + 1)
  obtain ⟨Gf, hGf, hGfb⟩ := bounded_on_ball hf.continuous (R + T + 1)
  obtain ⟨Kφ, hKφ, hφl⟩ := lip_ball hφ (R + T + 1)
  set c := 2 * C1 + K * (Cx + Gf) + K * (1 + G + Gf) with hc
  have hc0 : 0 ≤ c := by positivity
  set A := (Kφ * Cx + 2 * c * T) * Real.exp (K * T) with hA
  have hA0 : 0 ≤ A := by positivity
  refine ⟨max (max Cx A) G, min (min δx δ1) (min (1 / (Cx + 1)) (1 / (A + 1))), le_max_of_le_right hG, by positivity, ?_⟩
  intro N t h U y lam hh hδ hN ht hU hb hy hlam hterm
  have hd1 : h ≤ δx := hδ.trans ((min_le_left _ _).trans (min_le_left _ _))
  have hd2 : |h| ≤ δ1 := by rw [abs_of_nonneg hh]; exact hδ.trans ((min_le_left _ _).trans (min_le_right _ _))
  have hd3 : Cx * h ≤ 1 := by
    have := hδ.trans ((min_le_right _ _).trans (min_le_left _ _))
    rw [le_div_iff₀ (by linarith)] at this
    nlinarith
  have hd4 : A * h ≤ 1 := by
    have := hδ.trans ((min_le_right _ _).trans (min_le_right _ _))
    rw [le_div_iff₀ (by linarith)] at this
    nlinarith
  have hUc : ∀ i < N, ‖colAt U i‖ ≤ R := by
    intro i hi
    simp only [colAt, hi, dite_true]
    exact hU _
  have hxs := hstate N t h (colAt U) (states P ode h t (y t) U) y hh hd1 hN ht hUc (fun s hs => (hb s hs).1) hy rfl
    (fun i _ => states_succ P ode h t (y t) U i)
  -- times and bounds in a stage
  have htime : ∀ i ≤ N, t + i * h ∈ Icc t (t + N * h) := by
    intro i hi
    have : (i : ℝ) ≤ N := by exact_mod_cast hi
    constructor <;> nlinarith
  have habs : ∀ s ∈ Icc t (t + N * h), |s| ≤ R + T := by
    intro s hs
    rw [abs_le] at ht ⊢
    constructor <;> linarith [hs.1, hs.2]
  have hstage : ∀ i < N, ∀ s ∈ Icc (t + i * h) (t + (i + 1) * h), s ∈ Icc t (t + N * h) := by
    intro i hi s hs
    have h1 := htime i hi.le
    have h2 := htime (i + 1) hi
    push_cast at h2
    exact ⟨h1.1.trans hs.1, hs.2.trans h2.2⟩
  have hlen : ∀ i : ℕ, t + ((i : ℝ) + 1) * h - (t + i * h) = h := fun i => by ring
  have yl : ∀ i < N, ∀ s ∈ Icc (t + i * h) (t + (i + 1) * h), ∀ s' ∈ Icc (t + i * h) (t + (i + 1) * h), ‖y s' - y s‖ ≤ Gf * h := by
    intro i hi s hs s' hs'
    have := stage_lip (hy i hi) (G := Gf) (fun s hs => hGfb (s, y s, colAt U i) ?_) hGf hs hs'
    · rwa [hlen] at this
    · have h1 := hstage i hi s hs
      rw [Prod.norm_mk, Prod.norm_mk]
      exact max_le (by rw [Real.norm_eq_abs]; linarith [habs s h1]) (max_le (by linarith [(hb s h1).1]) (by linarith [hUc i hi]))
  have nrm : ∀ i < N, ∀ s ∈ Icc t (t + N * h), ∀ z w : Vec n ℝ, ‖z‖ ≤ R + T + 1 → ‖w‖ ≤ R + T + 1 →
      ‖((s, z, Fin.append w (colAt U i)) : Aug n (n + m))‖ ≤ R + T + 1 := by
    intro i hi s hs z w hz hw
    rw [Prod.norm_mk, Prod.norm_mk]
    exact max_le (by rw [Real.norm_eq_abs]; linarith [habs s hs]) (max_le hz (norm_append_le hw (by linarith [hUc i hi])))
  have ll : ∀ i < N, ∀ s ∈ Icc (t + i * h) (t + (i + 1) * h), ∀ s' ∈ Icc (t + i * h) (t + (i + 1) * h), ‖lam s' - lam s‖ ≤ G * h := by
    intro i hi s hs s' hs'
    have := stage_lip (hlam i hi) (G := G) (fun s hs => ?_) hG hs hs'
    · rwa [hlen] at this
    · have h1 := hstage i hi s hs
      exact hGb (s, lam s, Fin.append (y s) (colAt U i))
        (nrm i hi s h1 _ _ (by linarith [(hb s h1).2]) (by linarith [(hb s h1).1]))
  refine ⟨fun i hi => (hxs i hi).trans (mul_le_mul_of_nonneg_right (le_max_of_le_left (le_max_left _ _)) hh), ?_, fun i hi => ?_⟩
  swap
  · have h1 := hlen i
    exact (ll i hi _ ⟨le_rfl, by linarith⟩ _ ⟨by linarith, le_rfl⟩).trans (mul_le_mul_of_nonneg_right (le_max_right _ _) hh)
  -- the backward sweep
  have hback : ∀ k ≤ N, ‖lamB P ode h t (y t) U k - lam (t + (N - k : ℕ) * h)‖ ≤ A * h := by
    have e : (Kφ * (Cx * h) + 2 * (c * h) * T) * Real.exp (K * T) = A * h := by rw [hA]; ring
    rw [← e]
    refine gronwall (N := N) (Φ := fun k z => ode.solve P.costateEq (t + (N - k : ℕ) * h) z
      (Fin.append (states P ode h t (y t) U (N - (k + 1))) (colAt U (N - (k + 1)))) (-h))
      (x := lamB P ode h t (y t) U) (y := fun k => lam (t + (N - k : ℕ) * h)) hh (by positivity) (by positivity) hK hN ?_
      (fun i _ => rfl) ?_ ?_ (by rw [e]; exact hd4)
    · rw [lamB, Nat.sub_zero, hterm]
      have h0 := htime N le_rfl
      have hx := hxs N le_rfl
      have h1 := hφl (t + N * h, y (t + N * h)) (t + N * h, states P ode h t (y t) U N)
        (by rw [Prod.norm_mk]; exact max_le (by rw [Real.norm_eq_abs]; linarith [habs _ h0]) (by linarith [(hb _ h0).1]))
        (by
          rw [Prod.norm_mk]
          refine max_le (by rw [Real.norm_eq_abs]; linarith [habs _ h0]) ?_
          have := norm_le_norm_add_norm_sub' (states P ode h t (y t) U N) (y (t + N * h))
          linarith [(hb _ h0).1])
      refine h1.trans (mul_le_mul_of_nonneg_left ?_ hKφ)
      have e2 : ((t + N * h, states P ode h t (y t) U N) : ℝ × Vec n ℝ) - (t + N * h, y (t + N * h)) =
        (0, states P ode h t (y t) U N - y (t + N * h)) := by simp
      rw [e2, Prod.norm_mk]
      simpa using hx
    all_goals
      intro k hk
      obtain ⟨i, hi⟩ : ∃ i, N - (k + 1) = i := ⟨_, rfl⟩
      have hiN : i < N := by omega
      have hk1 : N - k = i + 1 := by omega
      rw [hi, hk1]
      have hs0 : t + i * h ∈ Icc (t + i * h) (t + (i + 1) * h) := ⟨le_rfl, by linarith [hlen i]⟩
      have hs1 : t + (i + 1) * h ∈ Icc (t + i * h) (t + (i + 1) * h) := ⟨by linarith [hlen i], le_rfl⟩
      have hin := hstage i hiN _ hs1
      push_cast
      set x := states P ode h t (y t) U i
      set u := colAt U i
      set τ := t + (i + 1) * h
      have hxy : ‖x - y (t + i * h)‖ ≤ Cx * h := hxs i hiN.le
      have hxb : ‖x‖ ≤ R + T + 1 := by
        have := norm_le_norm_add_norm_sub' x (y (t + i * h))
        linarith [(hb _ (htime i hiN.le)).1]
      have hxu : ‖(Fin.append x u : Vec (n + m) ℝ)‖ ≤ R + T + 1 := norm_append_le hxb (by linarith [hUc i hiN])
      have hd2' : |-h| ≤ δ1 := by rwa [abs_neg]
      have hτ : |τ| ≤ R + T + 1 := by linarith [habs _ hin]
      have hlb : ‖lam τ‖ ≤ R + T + 1 := by linarith [(hb _ hin).2]
      have hfo1 := hfo τ (lam τ) (Fin.append x u) (-h) hτ hlb hxu hd2'
      rw [neg_sq, neg_smul] at hfo1
    · -- local error
      have hx' : ‖x - y τ‖ ≤ (Cx + Gf) * h := by
        have h1 := yl i hiN _ hs1 _ hs0
        have := norm_sub_le_norm_sub_add_norm_sub x (y (t + i * h)) (y τ)
        linarith
      have hFx : ‖P.costateEq τ (lam τ) (Fin.append x u) - P.costateEq τ (lam τ) (Fin.append (y τ) u)‖ ≤ K * ((Cx + Gf) * h) := by
        have h1 := hlip (τ, lam τ, Fin.append (y τ) u) (τ, lam τ, Fin.append x u)
          (nrm i hiN τ hin _ _ hlb (by linarith [(hb _ hin).1])) (nrm i hiN τ hin _ _ hlb hxb)
        refine h1.trans (mul_le_mul_of_nonneg_left ?_ hK)
        have e2 : ((τ, lam τ, Fin.append x u) : Aug n (n + m)) - (τ, lam τ, Fin.append (y τ) u) =
          (0, 0, (Fin.append x u : Vec (n + m) ℝ) - Fin.append (y τ) u) := by simp
        rw [e2, Prod.norm_mk, Prod.norm_mk]
        simp only [norm_zero, norm_nonneg, sup_of_le_right]
        exact (norm_append_sub _ _ _).trans hx'
      have hmv : ‖lam τ - lam (t + i * h) - h • P.costateEq τ (lam τ) (Fin.append (y τ) u)‖ ≤ K * ((1 + G + Gf) * h) * h := by
        have hbd : ∀ s ∈ Icc (t + i * h) τ, ‖P.costateEq s (lam s) (Fin.append (y s) u) - P.costateEq τ (lam τ) (Fin.append (y τ) u)‖ ≤ K * ((1 + G + Gf) * h) := by
          intro s hs
          have hs2 := hstage i hiN s hs
          have h1 := hlip (τ, lam τ, Fin.append (y τ) u) (s, lam s, Fin.append (y s) u)
            (nrm i hiN τ hin _ _ hlb (by linarith [(hb _ hin).1]))
            (nrm i hiN s hs2 _ _ (by linarith [(hb _ hs2).2]) (by linarith [(hb _ hs2).1]))
          refine h1.trans (mul_le_mul_of_nonneg_left ?_ hK)
          have e2 : ((s, lam s, Fin.append (y s) u) : Aug n (n + m)) - (τ, lam τ, Fin.append (y τ) u) =
            (s - τ, lam s - lam τ, (Fin.append (y s) u : Vec (n + m) ℝ) - Fin.append (y τ) u) := by simp
          rw [e2, Prod.norm_mk, Prod.norm_mk]
          have g1 : 0 ≤ G * h := by positivity
          have g2 : 0 ≤ Gf * h := by positivity
          have b1 : ‖s - τ‖ ≤ h := by
            rw [Real.norm_eq_abs, abs_le]
            have := hlen i
            constructor <;> linarith [hs.1, hs.2]
          have b2 := ll i hiN _ hs1 _ hs
          have b3 := (norm_append_sub (y s) (y τ) u).trans (yl i hiN _ hs1 _ hs)
          exact max_le (by linarith) (max_le (by linarith) (by linarith))
        have := stage_mv (hlam i hiN) hbd (by positivity) hs0 hs1
        rwa [hlen] at this
      refine (local_comb hh hfo1 hFx hmv).trans ?_
      rw [hc]; nlinarith [mul_nonneg hC1 (sq_nonneg h)]
    · -- stability
      intro z hz
      have hz' : ‖z‖ ≤ R + T + 1 := by
        have := norm_le_norm_add_norm_sub' z (lam τ)
        linarith [(hb _ hin).2]
      have hfo2 := hfo τ z (Fin.append x u) (-h) hτ hz' hxu hd2'
      rw [neg_sq, neg_smul] at hfo2
      have h7 := hlip (τ, lam τ, Fin.append x u) (τ, z, Fin.append x u) (nrm i hiN τ hin _ _ hlb hxb) (nrm i hiN τ hin _ _ hz' hxb)
      have e2 : ((τ, z, Fin.append x u) : Aug n (n + m)) - (τ, lam τ, Fin.append x u) = (0, z - lam τ, 0) := by simp
      rw [e2, Prod.norm_mk, Prod.norm_mk] at h7
      simp only [norm_zero, norm_nonneg, sup_of_le_left, sup_of_le_right, joint] at h7
      refine (stab_comb hh hfo2 h7 hfo1).trans ?_
      have g1 : 0 ≤ K * (Cx + Gf) * h ^ 2 := by positivity
      have g2 : 0 ≤ K * (1 + G + Gf) * h ^ 2 := by positivity
      have g3 : c * h * h = 2 * C1 * h ^ 2 + K * (Cx + Gf) * h ^ 2 + K * (1 + G + Gf) * h ^ 2 := by rw [hc]; ring
      rw [g3]
      linarith
  intro i hi
  have := hback (N - i) (by omega)
  have e : N - (N - i) = i := by omega
  rw [e] at this
  exact this.trans (mul_le_mul_of_nonneg_right (le_max_of_le_left (le_max_right _ _)) hh)

/-- **C118.**  For a continuously differentiable problem and either solver, the residual computed by `calcDhDuList` approximates the
optimality condition of the continuous-time problem to first order: entry `i` differs by at most `C / N` from `∂H/∂u` at the start `t + i h` of
stage `i`, on the state trajectory `y` of the state equation under the stage inputs and the costate trajectory `lam` of the costate equation
along `y` with the terminal value `∂φ/∂x`; uniformly in the time, the inputs and the trajectories, as long as they stay in a given ball. -/
theorem C118_residual_order (P : Problem n m ℝ) (ode : Ode ℝ) (ho : ode.FirstOrder) (cfg : Config ℝ) (hT : 0 ≤ cfg.steadyHorizon)
    (ha : 0 ≤ cfg.increaseRatio) (hf : ContDiff ℝ 1 (joint P.stateEq)) (hF : ContDiff ℝ 1 (joint P.costateEq))
    (hφ : ContDiff ℝ 1 fun p : ℝ × Vec n ℝ => P.dphidx p.1 p.2)
    (hH : ContDiff ℝ 1 fun p : ℝ × Vec n ℝ × Vec m ℝ × Vec n ℝ => P.dhdu p.1 p.2.1 p.2.2.1 p.2.2.2) (R : ℝ) :
    ∃ C N₀, ∀ (N : ℕ) (t : ℝ) (U : Fin N → Vec m ℝ) (y lam : ℝ → Vec n ℝ), N₀ ≤ N → 0 ≤ t → t ≤ R → (∀ i, ‖U i‖ ≤ R) →
      let D := horizonDuration cfg t
      let h := D / N
      (∀ s ∈ Icc t (t + D), ‖y s‖ ≤ R ∧ ‖lam s‖ ≤ R) →
      Held P.stateEq N t h (colAt U) y → CoHeld P.costateEq N t h (colAt U) y lam → lam (t + D) = P.dphidx (t + D) (y (t + D)) →
      ∀ i : Fin N, ‖dhduList P ode cfg t (y t) U i - P.dhdu (t + (i : ℕ) * h) (y (t + (i : ℕ) * h)) (U i) (lam (t + (i : ℕ) * h))‖ ≤ C / N := by
  by_cases hR : 0 ≤ R
  swap
  · refine ⟨0, 0, ?_⟩
    intro N t U y lam _ h1 h2
    exact absurd (h1.trans h2) hR
  obtain ⟨C, δ, hC, hδ, key⟩ := costate_order P ode ho hf hF hφ R cfg.steadyHorizon hT
  obtain ⟨K, hK, hlip⟩ := lip_ball hH (R + cfg.steadyHorizon + 1)
  obtain ⟨N0, hN0⟩ := exists_nat_gt (cfg.steadyHorizon / (min δ (1 / (C + 1))))
  refine ⟨K * (2 * C) * cfg.steadyHorizon, N0 + 1, ?_⟩
  intro N t U y lam hN ht htR hU D h hb hy hlam hterm i
  have hNp : 0 < N := by omega
  have hN' : (0 : ℝ) < N := by exact_mod_cast hNp
  have e : horizonStep cfg N t = h := by simp [horizonStep, h, D]
  obtain ⟨b1, b2, b3⟩ := horizonStep_bounds cfg hT ha ht hNp
  rw [e] at b1 b2 b3
  have eN : (N : ℝ) * h = D := mul_div_cancel₀ _ hN'.ne'
  have hsd : h ≤ min δ (1 / (C + 1)) := by
    refine b2.trans ?_
    have hp : 0 < min δ (1 / (C + 1)) := by positivity
    rw [div_le_iff₀ hN']
    rw [div_lt_iff₀ hp] at hN0
    have : (N0 : ℝ) ≤ N := by exact_mod_cast (by omega : N0 ≤ N)
    nlinarith
  have hCh : C * h ≤ 1 := by
    have := hsd.trans (min_le_right _ _)
    rw [le_div_iff₀ (by linarith)] at this
    nlinarith
  obtain ⟨k1, k2, k3⟩ := key N t h U y lam b1 (hsd.trans (min_le_left _ _)) b3 (by rwa [abs_of_nonneg ht]) hU
    (by rw [eN]; exact hb) hy hlam (by rw [eN]; exact hterm)
  rw [dhduList_eq, e]
  have htime : ∀ j ≤ N, t + j * h ∈ Icc t (t + D) := by
    intro j hj
    have : (j : ℝ) ≤ N := by exact_mod_cast hj
    rw [← eN]
    constructor <;> nlinarith
  have c1 := k1 i i.2.le
  have c2 := k2 (i + 1) i.2
  have c3 := k3 i i.2
  push_cast at c2
  have i1 := htime i i.2.le
  have i2 := htime (i + 1) i.2
  push_cast at i2
  obtain ⟨y1, l1⟩ := hb _ i1
  obtain ⟨y2, l2⟩ := hb _ i2
  set x' := states P ode h t (y t) U i
  set l' := costates P ode h t (y t) U (i + 1)
  set τ := t + ((i : ℕ) : ℝ) * h
  have hτ : |τ| ≤ R + cfg.steadyHorizon := by
    rw [abs_of_nonneg (ht.trans i1.1)]
    have := i1.2
    rw [← eN] at this
    linarith
  have hl : ‖l' - lam τ‖ ≤ 2 * C * h := by
    have := norm_sub_le_norm_sub_add_norm_sub l' (lam (t + (((i : ℕ) : ℝ) + 1) * h)) (lam τ)
    linarith
  have nb : ∀ (a : Vec n ℝ) (b : Vec n ℝ), ‖a‖ ≤ R + cfg.steadyHorizon + 1 → ‖b‖ ≤ R + cfg.steadyHorizon + 1 →
      ‖((τ, a, U i, b) : ℝ × Vec n ℝ × Vec m ℝ × Vec n ℝ)‖ ≤ R + cfg.steadyHorizon + 1 := by
    intro a b h1 h2
    rw [Prod.norm_mk, Prod.norm_mk, Prod.norm_mk]
    exact max_le (by rw [Real.norm_eq_abs]; linarith) (max_le h1 (max_le (by linarith [hU i]) h2))
  have n1 := norm_le_norm_add_norm_sub' x' (y τ)
  have n2 := norm_le_norm_add_norm_sub' l' (lam (t + (((i : ℕ) : ℝ) + 1) * h))
  have main := hlip (τ, y τ, U i, lam τ) (τ, x', U i, l') (nb _ _ (by linarith) (by linarith)) (nb _ _ (by linarith) (by linarith))
  refine main.trans ?_
  have e2 : ((τ, x', U i, l') : ℝ × Vec n ℝ × Vec m ℝ × Vec n ℝ) - (τ, y τ, U i, lam τ) = (0, x' - y τ, 0, l' - lam τ) := by simp
  have g0 : 0 ≤ C * h := by positivity
  have e3 : ‖((τ, x', U i, l') : ℝ × Vec n ℝ × Vec m ℝ × Vec n ℝ) - (τ, y τ, U i, lam τ)‖ ≤ 2 * C * h := by
    rw [e2, Prod.norm_mk, Prod.norm_mk, Prod.norm_mk, norm_zero, norm_zero]
    exact max_le (by linarith) (max_le (by linarith) (max_le (by linarith) hl))
  calc _ ≤ K * (2 * C * h) := mul_le_mul_of_nonneg_left e3 hK
    _ ≤ K * (2 * C * (cfg.steadyHorizon / N)) := by gcongr
    _ = _ := by ring

end Nmpc.Cgmres
