import Verif.Base.XQ
import Verif.FMPC.Lemmas

/-!
# FMPC: special values in the merit function (C42)

Rationals with IEEE special values (`XQ`).
-/

namespace Nmpc

namespace XQ

/-- Neither NaN nor infinite. -/
def Finite (a : XQ) : Prop := a.isNaN = false ∧ a.isInfinite = false

theorem finite_iff (a : XQ) : a.Finite ↔ a = .nzero ∨ ∃ q, a = .fin q := by
  cases a <;> simp [Finite, isNaN, isInfinite]

theorem finite_fin (q : ℚ) : (XQ.fin q).Finite := ⟨rfl, rfl⟩

theorem finite_zeroS (b : Bool) : (zeroS b).Finite := by cases b <;> exact ⟨rfl, rfl⟩

theorem Finite.add {a b : XQ} (ha : a.Finite) (hb : b.Finite) : (a + b).Finite := by
  obtain rfl | ⟨p, rfl⟩ := (finite_iff a).1 ha <;> obtain rfl | ⟨q, rfl⟩ := (finite_iff b).1 hb <;> exact ⟨rfl, rfl⟩

theorem Finite.mul {a b : XQ} (ha : a.Finite) (hb : b.Finite) : (a * b).Finite := by
  change (XQ.mul a b).Finite
  unfold XQ.mul
  rw [ha.1, ha.2, hb.1, hb.2]
  simp only [Bool.or_false, Bool.false_and, Bool.and_false, Bool.false_eq_true, if_false]
  split
  · exact finite_zeroS _
  · exact finite_fin _

theorem Finite.div {a b : XQ} (ha : a.Finite) (hb : b.Finite) (h0 : b.isZero = false) : (a / b).Finite := by
  change (XQ.div a b).Finite
  unfold XQ.div
  rw [ha.1, ha.2, hb.1, hb.2, h0]
  simp only [Bool.or_false, Bool.and_false, Bool.false_eq_true, if_false]
  split
  · exact finite_zeroS _
  · exact finite_fin _

theorem Finite.abs {a : XQ} (ha : a.Finite) : (XQ.abs a).Finite := by
  obtain rfl | ⟨p, rfl⟩ := (finite_iff a).1 ha <;> exact ⟨rfl, rfl⟩

theorem Finite.fmax {a b : XQ} (ha : a.Finite) (hb : b.Finite) : (fmax a b).Finite := by
  unfold Nmpc.fmax
  split <;> assumption

end XQ

namespace FMPC

open XQ

variable {n : ℕ} {m p : ℕ → ℕ} {N : ℕ} {cfg : Config XQ} {S : Stages n m p XQ} {x0 : Vec n XQ} {w : Solver n m p XQ}

theorem maxAbs_finite {k : ℕ} {v : Vec k XQ} (h : ∀ i, (v i).Finite) : (maxAbs v).Finite := by
  unfold maxAbs
  split
  · exact finite_fin 0
  · rename_i a as ha
    have hall : ∀ b ∈ a :: as, b.Finite := by
      intro b hb
      rw [← ha, List.mem_map] at hb
      obtain ⟨i, -, rfl⟩ := hb
      exact (h i).abs
    clear ha
    induction as generalizing a with
    | nil => exact hall a (by simp)
    | cons c cs ih =>
      rw [List.foldl_cons]
      refine ih _ fun b hb => ?_
      rcases List.mem_cons.1 hb with rfl | hb
      · exact (hall a (by simp)).fmax (hall c (by simp))
      · exact hall b (by simp [hb])

/-- **C42**, partial: the penalty scale, the merit value and its derivative are finite if all terms they are computed from
are finite and the scale is taken from the multipliers or the constraint violation is not zero.  Missing for the full
claim: an exactly feasible iterate with the scale taken from the derivative, for which the claim is false (`C42_zero`,
`C42_fails`). -/
theorem C42_finite_partial (ho : (meritObj N S w.eps w.var).Finite) (hc : (meritConst N S x0 w.var).Finite)
    (hdo : (meritDerivObj N S w).Finite) (hdc : (meritDerivConst N S x0 w).Finite)
    (h : (cfg.scaleFromMultipliers = false ∧ (meritConst N S x0 w.var).isZero = false) ∨
      (cfg.scaleFromMultipliers = true ∧ 0 < n ∧ (∀ i < N, 0 < p i) ∧ (∀ i ≤ N, ∀ j, (w.var.lam i j).Finite) ∧
        ∀ i < N, ∀ j, (w.var.nu i j).Finite)) :
    ∃ mt, setupMerit N cfg S x0 w = .ok mt ∧ mt.scale.Finite ∧ mt.func.Finite ∧ mt.deriv.Finite := by
  have key : ∃ sc, meritScale N cfg w.var (meritConst N S x0 w.var) (meritDerivObj N S w) = .ok sc ∧ sc.Finite := by
    rcases h with ⟨h1, h2⟩ | ⟨h1, h2, h3, h4, h5⟩
    · unfold meritScale
      rw [h1]
      simp only [Bool.false_eq_true, if_false]
      refine ⟨_, rfl, XQ.Finite.fmax (hdo.div ?_ ?_) (finite_fin _)⟩
      · exact XQ.Finite.mul ⟨by decide +kernel, by decide +kernel⟩ hc
      · change (XQ.mul (.fin 1 + XQ.neg (.fin (1 / 2))) _).isZero = false
        obtain h0 | ⟨q, h0⟩ := (finite_iff _).1 hc
        · rw [h0] at h2; cases h2
        · rw [h0] at h2 ⊢
          have hq : q ≠ 0 := by simpa [isZero] using h2
          have e1 : (XQ.fin 1 + XQ.neg (.fin (1 / 2)) : XQ) = .fin (1 / 2) := by decide +kernel
          rw [e1]
          simp [XQ.mul, isNaN, isInfinite, isZero, hq, val]
    · unfold meritScale
      rw [h1]
      have : (n == 0 || (List.range N).any fun i => p i == 0) = false := by
        simp only [Bool.or_eq_false_iff, beq_eq_false_iff_ne, List.any_eq_false, List.mem_range, beq_iff_eq]
        exact ⟨by omega, fun i hi => by have := h3 i hi; omega⟩
      rw [if_pos rfl, this]
      simp only [Bool.false_eq_true, if_false]
      refine ⟨_, rfl, XQ.Finite.fmax ?_ (maxAbs_finite (h4 N (le_refl _)))⟩
      have : ∀ k ≤ N, (forUp k (fun i a => fmax (fmax a (maxAbs (w.var.lam i))) (maxAbs (w.var.nu i)))
          (lit (1 / 1000) : XQ)).Finite := by
        intro k hk
        induction k with
        | zero => exact finite_fin _
        | succ k ih =>
          rw [forUp]
          exact ((ih (by omega)).fmax (maxAbs_finite (h4 k (by omega)))).fmax (maxAbs_finite (h5 k (by omega)))
      exact this N (le_refl _)
  obtain ⟨sc, h1, h2⟩ := key
  unfold setupMerit
  dsimp only
  rw [h1]
  exact ⟨_, rfl, h2, ho.add (h2.mul hc), hdo.add (h2.mul hdc)⟩

/-- **C42** (exactly feasible iterates) If the constraint violation is exactly zero and the scale is taken from the
derivative, the merit value is a number only if the objective derivative is negative: it is NaN if the derivative is zero
(scale NaN) or positive (scale infinite). -/
theorem C42_zero (hs : cfg.scaleFromMultipliers = false) (hc : meritConst N S x0 w.var = .fin 0) {q : ℚ}
    (hd : meritDerivObj N S w = .fin q) :
    ∃ mt, setupMerit N cfg S x0 w = .ok mt ∧
      (q = 0 → mt.scale = .nan ∧ mt.func = .nan) ∧ (0 < q → mt.scale = .pinf ∧ mt.func = .nan) ∧
      (q < 0 → mt.scale = .fin (1 / 1000)) := by
  unfold setupMerit meritScale
  dsimp only
  rw [hs, hc, hd]
  simp only [Bool.false_eq_true, if_false]
  refine ⟨_, rfl, ?_, ?_, ?_⟩
  · intro hq
    subst hq
    have e : (fmax (XQ.fin 0 / ((1 - lit (1 / 2)) * XQ.fin 0)) (lit (1 / 1000)) : XQ) = .nan := by decide +kernel
    rw [e]
    refine ⟨rfl, ?_⟩
    change XQ.add _ (XQ.mul _ _) = _
    generalize meritObj N S w.eps w.var = a
    cases a <;> rfl
  · intro hq
    have e0 : ((1 - lit (1 / 2)) * XQ.fin 0 : XQ) = .fin 0 := by decide +kernel
    have e : (fmax (XQ.fin q / ((1 - lit (1 / 2)) * XQ.fin 0)) (lit (1 / 1000)) : XQ) = .pinf := by
      rw [e0]
      have : (XQ.fin q / XQ.fin 0 : XQ) = .pinf := by
        change XQ.div _ _ = _
        simp [XQ.div, isNaN, isInfinite, isZero, isNeg, infS, hq.ne', not_lt.2 hq.le]
      rw [this]
      rfl
    rw [e]
    refine ⟨rfl, ?_⟩
    change XQ.add _ (XQ.mul .pinf (.fin 0)) = _
    have : XQ.mul .pinf (.fin 0) = .nan := by decide +kernel
    rw [this]
    generalize meritObj N S w.eps w.var = a
    cases a <;> rfl
  · intro hq
    have e0 : ((1 - lit (1 / 2)) * XQ.fin 0 : XQ) = .fin 0 := by decide +kernel
    dsimp only
    rw [e0]
    have : (XQ.fin q / XQ.fin 0 : XQ) = .ninf := by
      change XQ.div _ _ = _
      simp [XQ.div, isNaN, isInfinite, isZero, isNeg, infS, hq.ne, hq]
    rw [this]
    rfl

theorem lsLoop_accept {α : Type} [Mul α] [FOps α] {accept : α → Bool} {a b : α} (h : loopM (lsStep accept) a = some b) :
    ltb b (lit (1 / 10 ^ 10)) = true ∨ accept b = true := by
  refine loopM_invariant (fun _ => True) (fun b => ltb b (lit (1 / 10 ^ 10)) = true ∨ accept b = true)
    (fun _ _ _ _ => trivial) ?_ trivial h
  intro s r _ hr
  unfold lsStep at hr
  split at hr
  · rename_i h1; cases hr; exact .inl h1
  · split at hr
    · rename_i h1; cases hr; exact .inr h1
    · cases hr

/-- **C42** (consequence) With a NaN merit value the line search never accepts: the step length ends below 1e-10. -/
theorem C42_no_progress {a b : XQ} {w' : Solver n m p XQ} (he : cfg.enableLineSearch = true) {mt : Merit XQ}
    (hm : setupMerit N cfg S x0 w = .ok mt) (hn : mt.func = .nan) (h : lineSearch N cfg S x0 w a = .ok (b, w')) :
    ltb b (lit (1 / 10 ^ 10)) = true := by
  have := lineSearch_out (N := N) (cfg := cfg) (S := S) (x0 := x0) w a
  rw [h] at this
  generalize hx : (Res.ok (b, w') : Res (XQ × Solver n m p XQ)) = x at this
  cases this with
  | off h1 => rw [he] at h1; cases h1
  | on h1 mt' hm' c hc =>
    cases hx
    rw [hm] at hm'
    cases hm'
    rcases lsLoop_accept hc with h2 | h2
    · exact h2
    · unfold armijo at h2
      dsimp only at h2
      rw [hn] at h2
      change XQ.lt _ (XQ.add .nan _) = true at h2
      have : ∀ y, XQ.add .nan y = .nan := fun y => by cases y <;> rfl
      rw [this] at h2
      generalize calcMerit N S w.eps x0 mt.scale (lsVar w.var w.delta b) = y at h2
      cases y <;> cases h2
  | _ => cases hx

end FMPC
end Nmpc
