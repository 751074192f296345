import Verif.Float.Laws
import Verif.FMPC.Update

/-!
# Step lengths of FMPC in floating-point arithmetic (lemmas)
-/

set_option linter.unusedSectionVars false

namespace Nmpc

namespace FloatLaws

variable {α : Type} [Add α] [Sub α] [Mul α] [Div α] [Neg α] [Zero α] [One α] [FOps α] {u : ℝ} (F : FloatLaws α u)

/-- `a <= 0` does not hold: `a` is NaN, plus infinity or a positive number. -/
theorem leb_zero_false (a : α) :
    leb a 0 = false ↔ F.val a = .nan ∨ F.val a = .pinf ∨ ∃ r, F.val a = .fin r ∧ 0 < r := by
  have h1 := F.ltb_iff a 0
  have h2 := F.eqb_iff a 0
  rw [F.zero] at h1 h2
  unfold leb
  rw [Bool.or_eq_false_iff, ← Bool.not_eq_true, ← Bool.not_eq_true, h1, h2]
  cases h : F.val a <;> simp [FVal.Lt, FVal.Eq]
  constructor
  · rintro ⟨g1, g2⟩; exact lt_of_le_of_ne g1 (Ne.symm g2)
  · intro g; exact ⟨g.le, g.ne'⟩

theorem ltb_zero {a : α} : ltb a 0 = true ↔ F.val a = .ninf ∨ ∃ r, F.val a = .fin r ∧ r < 0 := by
  rw [F.ltb_iff, F.zero]
  cases h : F.val a <;> simp [FVal.Lt]

theorem zero_ltb {a : α} : ltb 0 a = true ↔ F.val a = .pinf ∨ ∃ r, F.val a = .fin r ∧ 0 < r := by
  rw [F.ltb_iff, F.zero]
  cases h : F.val a <;> simp [FVal.Lt]

theorem leb_one {a : α} (h : leb a 1 = true) : F.val a = .ninf ∨ ∃ r, F.val a = .fin r ∧ r ≤ 1 := by
  have h1 := F.ltb_iff a 1
  have h2 := F.eqb_iff a 1
  rw [F.one] at h1 h2
  unfold leb at h
  rw [Bool.or_eq_true, h1, h2] at h
  cases g : F.val a <;> simp [FVal.Lt, FVal.Eq, g] at h ⊢
  rcases h with h | h
  · exact h.le
  · exact h.le

theorem not_neg_of_safe {a : α} (h : leb a 0 = false) : ltb a 0 = false := by
  unfold leb at h
  rw [Bool.or_eq_false_iff] at h
  exact h.1

end FloatLaws

/-- A relative error of at most `u < 1` keeps the sign; bounds of the rounded value of a non-negative number. -/
theorem FVal.Near.nonneg {u r : ℝ} {z : FVal} (h : FVal.Near u r z) (hr : 0 ≤ r) :
    ∃ x, z = .fin x ∧ r * (1 - u) ≤ x ∧ x ≤ r * (1 + u) := by
  obtain ⟨δ, hδ, rfl⟩ := h
  rw [abs_le] at hδ
  exact ⟨_, rfl, mul_le_mul_of_nonneg_left (by linarith [hδ.1]) hr, mul_le_mul_of_nonneg_left (by linarith [hδ.2]) hr⟩

theorem FVal.Near.nonpos {u r : ℝ} {z : FVal} (h : FVal.Near u r z) (hr : r ≤ 0) :
    ∃ x, z = .fin x ∧ r * (1 + u) ≤ x ∧ x ≤ r * (1 - u) := by
  obtain ⟨δ, hδ, rfl⟩ := h
  rw [abs_le] at hδ
  exact ⟨_, rfl, mul_le_mul_of_nonpos_left (by linarith [hδ.2]) hr, mul_le_mul_of_nonpos_left (by linarith [hδ.1]) hr⟩

namespace FMPC

variable {α : Type} [Add α] [Sub α] [Mul α] [Div α] [Neg α] [Zero α] [One α] [FOps α] {u : ℝ}

/-- The bound that the fraction-to-boundary rule puts on a step length `r` for one component `v` with direction `d`. -/
def StepBound (F : FloatLaws α u) (v d : α) (r : ℝ) : Prop :=
  ∀ x, F.val v = .fin x →
    (∀ y, F.val d = .fin y → y < 0 → r * (-y) ≤ 995 / 1000 * (1 + u) ^ 4 * x) ∧ (F.val d = .ninf → r ≤ 0)

theorem StepBound.mono {F : FloatLaws α u} {v d : α} {r r' : ℝ} (h : StepBound F v d r) (hr : r' ≤ r) :
    StepBound F v d r' := by
  intro x hx
  obtain ⟨h1, h2⟩ := h x hx
  refine ⟨fun y hy hy0 => le_trans (mul_le_mul_of_nonneg_right hr (by linarith)) (h1 y hy hy0), fun hd => hr.trans (h2 hd)⟩

/-- One quotient of the rule. -/
theorem quotient_spec (F : FloatLaws α u) (hu : u < 1) {v d : α} (hv : leb v 0 = false) (hd : ltb d 0 = true) :
    (F.val ((-1) * lit (995 / 1000) * v / d) = .nan ∨ F.val ((-1) * lit (995 / 1000) * v / d) = .pinf ∨
      ∃ q, F.val ((-1) * lit (995 / 1000) * v / d) = .fin q ∧ 0 ≤ q ∧ (F.val d ≠ .ninf → 0 < q) ∧
        StepBound F v d q) ∧
    (∀ x, F.val v = .fin x → ∃ q, F.val ((-1) * lit (995 / 1000) * v / d) = .fin q) := by
  have u0 := F.u_nonneg
  have m1 : F.val (-1) = .fin (-1) := by rw [F.neg, F.one]; rfl
  obtain ⟨c, hc, c1, c2⟩ := (F.lit (995 / 1000)).nonneg (by norm_num)
  push_cast at c1 c2
  have c0 : 0 < c := by nlinarith
  obtain ⟨e, he, e1, e2⟩ := (F.mul_fin m1 hc).nonpos (by linarith)
  have e0 : e < 0 := by nlinarith
  rcases (F.leb_zero_false v).1 hv with h | h | ⟨x, h, hx⟩
  · have h1 := F.mul ((-1) * lit (995 / 1000)) v
    rw [he, h] at h1
    have h2 := F.div ((-1) * lit (995 / 1000) * v) d
    rw [show F.val ((-1) * lit (995 / 1000) * v) = .nan from h1] at h2
    refine ⟨.inl h2, ?_⟩
    intro x hx; rw [h] at hx; cases hx
  · have h1 := F.mul ((-1) * lit (995 / 1000)) v
    rw [he, h] at h1
    have h1' : F.val ((-1) * lit (995 / 1000) * v) = .ninf := h1.2.2.1 ⟨e0, trivial⟩
    have h2 := F.div ((-1) * lit (995 / 1000) * v) d
    rw [h1'] at h2
    refine ⟨?_, by intro x hx; rw [h] at hx; cases hx⟩
    rcases F.ltb_zero.1 hd with g | ⟨y, g, hy⟩
    · rw [g] at h2; exact .inl h2
    · rw [g] at h2; exact .inr (.inl ((h2 hy.ne).2.2.2.1 ⟨trivial, hy⟩))
  · obtain ⟨f, hf, f1, f2⟩ := (F.mul_fin he h).nonpos (by nlinarith)
    have f0 : f < 0 := by
      have : 0 < (-e) * x * (1 - u) := by
        have : 0 < -e := by linarith
        have : 0 < 1 - u := by linarith
        positivity
      nlinarith
    have h2 := F.div ((-1) * lit (995 / 1000) * v) d
    rw [hf] at h2
    rcases F.ltb_zero.1 hd with g | ⟨y, g, hy⟩
    · rw [g] at h2
      have h2' : F.val ((-1) * lit (995 / 1000) * v / d) = .fin 0 := h2
      refine ⟨.inr (.inr ⟨0, h2', le_refl _, fun hn => absurd g hn, ?_⟩), fun _ _ => ⟨0, h2'⟩⟩
      intro x' hx'
      refine ⟨?_, fun _ => le_refl _⟩
      intro y hy; rw [g] at hy; cases hy
    · rw [g] at h2
      have q0 : 0 < f / y := div_pos_of_neg_of_neg f0 hy
      obtain ⟨q, hq, q1, q2⟩ := (h2 hy.ne).nonneg q0.le
      have q3 : 0 < q := by
        have : 0 < f / y * (1 - u) := mul_pos q0 (by linarith)
        linarith
      refine ⟨.inr (.inr ⟨q, hq, q3.le, fun _ => q3, ?_⟩), fun _ _ => ⟨q, hq⟩⟩
      intro x' hx'
      rw [h] at hx'; cases hx'
      refine ⟨?_, fun hn => by rw [g] at hn; cases hn⟩
      intro y' hy' _
      rw [g] at hy'; cases hy'
      have k1 : q * (-y) ≤ f / y * (1 + u) * (-y) := mul_le_mul_of_nonneg_right q2 (by linarith)
      have k2 : f / y * (1 + u) * (-y) = (-f) * (1 + u) := by
        have := hy.ne
        field_simp
      have k3 : -f ≤ (-e) * x * (1 + u) := by linarith
      have k4 : -e ≤ c * (1 + u) := by linarith
      have k5 : (-e) * x ≤ c * (1 + u) * x := mul_le_mul_of_nonneg_right k4 hx.le
      have k6 : c * (1 + u) * x ≤ 995 / 1000 * (1 + u) * (1 + u) * x := by
        apply mul_le_mul_of_nonneg_right _ hx.le
        exact mul_le_mul_of_nonneg_right c2 (by linarith)
      have k7 : (-f) * (1 + u) ≤ 995 / 1000 * (1 + u) * (1 + u) * x * (1 + u) * (1 + u) := by
        apply mul_le_mul_of_nonneg_right _ (by linarith)
        exact k3.trans (mul_le_mul_of_nonneg_right (k5.trans k6) (by linarith))
      calc q * (-y) ≤ (-f) * (1 + u) := by rw [← k2]; exact k1
        _ ≤ _ := k7
        _ = _ := by ring

/-- Inner loop of the fraction-to-boundary rule. -/
theorem fraction_inner_float (F : FloatLaws α u) (hu : u < 1) {k : ℕ} (v dv : Vec k α) (l : List (Fin k)) (a : α) {r : ℝ}
    (ha : F.val a = .fin r) (hr : 0 ≤ r) (hv : ∀ j, leb (v j) 0 = false) :
    ∃ r', F.val (l.foldl (fun a j => if ltb (dv j) 0 then fmin a ((-1) * lit (995 / 1000) * v j / dv j) else a) a) = .fin r' ∧
      0 ≤ r' ∧ r' ≤ r ∧ (∀ j ∈ l, StepBound F (v j) (dv j) r') ∧ (0 < r → (∀ j ∈ l, F.val (dv j) ≠ .ninf) → 0 < r') := by
  induction l generalizing a r with
  | nil => exact ⟨r, ha, hr, le_refl _, by simp, fun h _ => h⟩
  | cons j l ih =>
    rw [List.foldl_cons]
    by_cases h : ltb (dv j) 0 = true
    · rw [if_pos h]
      obtain ⟨hq, hqf⟩ := quotient_spec F hu (hv j) h
      have key : ∃ r1, F.val (fmin a ((-1) * lit (995 / 1000) * v j / dv j)) = .fin r1 ∧ 0 ≤ r1 ∧ r1 ≤ r ∧
          StepBound F (v j) (dv j) r1 ∧ (0 < r → F.val (dv j) ≠ .ninf → 0 < r1) := by
        unfold fmin
        rcases hq with hq | hq | ⟨q, hq, q0, q1, q2⟩
        · have : ltb ((-1) * lit (995 / 1000) * v j / dv j) a = false := by
            rw [← Bool.not_eq_true, F.ltb_iff, hq, ha]; simp [FVal.Lt]
          rw [this]
          refine ⟨r, ha, hr, le_refl _, ?_, fun h _ => h⟩
          intro x hx
          obtain ⟨q, hq'⟩ := hqf x hx
          rw [hq] at hq'; cases hq'
        · have : ltb ((-1) * lit (995 / 1000) * v j / dv j) a = false := by
            rw [← Bool.not_eq_true, F.ltb_iff, hq, ha]; simp [FVal.Lt]
          rw [this]
          refine ⟨r, ha, hr, le_refl _, ?_, fun h _ => h⟩
          intro x hx
          obtain ⟨q, hq'⟩ := hqf x hx
          rw [hq] at hq'; cases hq'
        · have hl := F.ltb_iff ((-1) * lit (995 / 1000) * v j / dv j) a
          rw [hq, ha] at hl
          by_cases hlt : q < r
          · rw [if_pos (hl.2 hlt)]
            exact ⟨q, hq, q0, hlt.le, q2, fun _ h => q1 h⟩
          · rw [if_neg (fun h => hlt (hl.1 h))]
            exact ⟨r, ha, hr, le_refl _, q2.mono (not_lt.1 hlt), fun h _ => h⟩
      obtain ⟨r1, g1, g2, g3, g4, g5⟩ := key
      obtain ⟨r', k1, k2, k3, k4, k5⟩ := ih _ g1 g2
      refine ⟨r', k1, k2, k3.trans g3, ?_, ?_⟩
      · intro j' hj'
        rcases List.mem_cons.1 hj' with rfl | hj'
        · exact g4.mono k3
        · exact k4 j' hj'
      · intro h0 hn
        exact k5 (g5 h0 (hn j (List.mem_cons_self ..))) (fun j' hj' => hn j' (List.mem_cons_of_mem _ hj'))
    · rw [if_neg h]
      obtain ⟨r', k1, k2, k3, k4, k5⟩ := ih a ha hr
      refine ⟨r', k1, k2, k3, ?_, fun h0 hn => k5 h0 (fun j' hj' => hn j' (List.mem_cons_of_mem _ hj'))⟩
      intro j' hj'
      rcases List.mem_cons.1 hj' with rfl | hj'
      · intro x _
        rw [F.ltb_zero] at h
        push Not at h
        exact ⟨fun y hy hy0 => absurd hy0 (not_lt.2 (h.2 y hy)), fun hn => absurd hn h.1⟩
      · exact k4 j' hj'

theorem alphaMax_float (F : FloatLaws α u) (hu : u < 1) {p : ℕ → ℕ} {N : ℕ} (v dv : (i : ℕ) → Vec (p i) α)
    (hv : ∀ i < N, ∀ j, leb (v i j) 0 = false) :
    ∃ r, F.val (alphaMax N v dv) = .fin r ∧ 0 ≤ r ∧ r ≤ 1 ∧ (∀ i < N, ∀ j, StepBound F (v i j) (dv i j) r) ∧
      ((∀ i < N, ∀ j, F.val (dv i j) ≠ .ninf) → 0 < r) := by
  have := forUp_invariant (n := N)
    (body := fun i a => (List.finRange (p i)).foldl (fun a j =>
      if ltb (dv i j) 0 then fmin a ((-1) * lit (995 / 1000) * v i j / dv i j) else a) a) (s := (1 : α))
    (fun k a => ∃ r, F.val a = .fin r ∧ 0 ≤ r ∧ r ≤ 1 ∧ (∀ i < k, ∀ j, StepBound F (v i j) (dv i j) r) ∧
      ((∀ i < k, ∀ j, F.val (dv i j) ≠ .ninf) → 0 < r))
    ⟨1, F.one, by norm_num, le_refl _, by intro i hi; omega, fun _ => one_pos⟩ (by
      rintro i a hi ⟨r, h1, h2, h3, h4, h5⟩
      obtain ⟨r', g1, g2, g3, g4, g5⟩ := fraction_inner_float F hu (v i) (dv i) (List.finRange (p i)) a h1 h2 (hv i hi)
      refine ⟨r', g1, g2, g3.trans h3, ?_, ?_⟩
      · intro i' hi' j
        rcases Nat.lt_succ_iff_lt_or_eq.1 hi' with h | rfl
        · exact (h4 i' h j).mono g3
        · exact g4 j (List.mem_finRange j)
      · intro hn
        exact g5 (h5 fun i' hi' => hn i' (by omega)) (fun j _ => hn i (by omega) j))
  exact this

/-- A step within the bound leaves a component that is not `<= 0`; a positive number keeps a quarter percent. -/
theorem step_float (F : FloatLaws α u) (hu : u ≤ 1 / 2048) {v d a : α} {r : ℝ} (hv : leb v 0 = false)
    (ha : F.val a = .fin r) (h0 : 0 < r) (hb : StepBound F v d r) :
    leb (v + a * d) 0 = false ∧
      ∀ x y, F.val v = .fin x → F.val d = .fin y → ∃ z, F.val (v + a * d) = .fin z ∧ 25 / 10000 * x ≤ z := by
  have u0 := F.u_nonneg
  have hm := F.mul a d
  rw [ha] at hm
  have hs := F.add v (a * d)
  rw [F.leb_zero_false]
  rcases (F.leb_zero_false v).1 hv with h | h | ⟨x, h, hx⟩
  · rw [h] at hs
    exact ⟨.inl hs, fun x y hx => by rw [h] at hx; cases hx⟩
  · refine ⟨?_, fun x y hx => by rw [h] at hx; cases hx⟩
    rw [h] at hs
    cases g : F.val (a * d) <;> rw [g] at hs
    · exact .inl hs
    · exact .inl hs
    · exact .inr (.inl hs)
    · exact .inr (.inl hs)
  · cases g : F.val d with
    | nan =>
      rw [g] at hm
      rw [show F.val (a * d) = .nan from hm, h] at hs
      exact ⟨.inl hs, fun _ _ _ hy => by cases hy⟩
    | ninf => exact absurd ((hb x h).2 g) (not_le.2 h0)
    | pinf =>
      rw [g] at hm
      have : F.val (a * d) = .pinf := hm.1 ⟨h0, trivial⟩
      rw [this, h] at hs
      exact ⟨.inr (.inl hs), fun _ _ _ hy => by cases hy⟩
    | fin y =>
      have key : ∃ z, F.val (v + a * d) = .fin z ∧ 25 / 10000 * x ≤ z := by
        by_cases hy : y < 0
        · obtain ⟨w, hw, w1, w2⟩ := (F.mul_fin ha g).nonpos (by nlinarith)
          have b1 := (hb x h).1 y g hy
          have pu : (1 + u) ^ 5 ≤ (1 + 1 / 2048) ^ 5 := pow_le_pow_left₀ (by linarith) (by linarith) 5
          have b2 : -w ≤ 995 / 1000 * (1 + u) ^ 4 * x * (1 + u) := by
            have : -w ≤ r * (-y) * (1 + u) := by linarith
            exact this.trans (mul_le_mul_of_nonneg_right b1 (by linarith))
          have b3 : 995 / 1000 * (1 + u) ^ 4 * x * (1 + u) = 995 / 1000 * (1 + u) ^ 5 * x := by ring
          have b4 : 995 / 1000 * (1 + u) ^ 5 * x ≤ 995 / 1000 * (1 + 1 / 2048) ^ 5 * x := by
            apply mul_le_mul_of_nonneg_right _ hx.le; linarith
          have b5 : 2565 / 1000000 * x ≤ x + w := by
            have : (995 / 1000 * (1 + 1 / 2048) ^ 5 : ℝ) ≤ 1 - 2565 / 1000000 := by norm_num
            nlinarith
          obtain ⟨z, hz, z1, z2⟩ := (F.add_fin h hw).nonneg (by nlinarith)
          refine ⟨z, hz, le_trans ?_ z1⟩
          nlinarith
        · obtain ⟨w, hw, w1, w2⟩ := (F.mul_fin ha g).nonneg (mul_nonneg h0.le (not_lt.1 hy))
          have w0 : 0 ≤ w := le_trans (mul_nonneg (mul_nonneg h0.le (not_lt.1 hy)) (by linarith)) w1
          obtain ⟨z, hz, z1, z2⟩ := (F.add_fin h hw).nonneg (by linarith)
          refine ⟨z, hz, le_trans ?_ z1⟩
          nlinarith
      refine ⟨?_, ?_⟩
      · obtain ⟨z, hz, h1⟩ := key
        exact .inr (.inr ⟨z, hz, by nlinarith⟩)
      · intro x' y' hx' hy'
        rw [h] at hx'; cases hx'
        exact key

/-- Halving keeps a number positive and makes it smaller. -/
theorem halve_float (F : FloatLaws α u) (hu : u ≤ 1 / 2048) {a : α} {r : ℝ} (ha : F.val a = .fin r) (h0 : 0 < r) :
    ∃ r', F.val (halve a) = .fin r' ∧ 0 < r' ∧ r' ≤ r ∧ r' ≤ r * (1 / 2 * (1 + u) ^ 2) := by
  have u0 := F.u_nonneg
  obtain ⟨h, hh, h1, h2⟩ := (F.lit (1 / 2)).nonneg (by norm_num)
  push_cast at h1 h2
  have hp : 0 < h := by nlinarith
  obtain ⟨r', hr', r1, r2⟩ := (F.mul_fin ha hh).nonneg (by positivity)
  have hrh : 0 < r * h := mul_pos h0 hp
  refine ⟨r', hr', by nlinarith, ?_, ?_⟩
  · have : h * (1 + u) ≤ 1 := by nlinarith
    calc r' ≤ r * (h * (1 + u)) := by linarith
      _ ≤ r * 1 := mul_le_mul_of_nonneg_left this h0.le
      _ = r := mul_one r
  · calc r' ≤ r * (h * (1 + u)) := by linarith
      _ ≤ r * (1 / 2 * (1 + u) * (1 + u)) := by
        apply mul_le_mul_of_nonneg_left _ h0.le
        exact mul_le_mul_of_nonneg_right h2 (by linarith)
      _ = _ := by ring

theorem halve_iter_float (F : FloatLaws α u) (hu : u ≤ 1 / 2048) (k : ℕ) {a : α} {r : ℝ} (ha : F.val a = .fin r)
    (h0 : 0 < r) :
    ∃ r', F.val (halve^[k] a) = .fin r' ∧ 0 < r' ∧ r' ≤ r ∧ r' ≤ r * (1 / 2 * (1 + u) ^ 2) ^ k := by
  have u0 := F.u_nonneg
  induction k with
  | zero => exact ⟨r, ha, h0, le_refl _, by simp⟩
  | succ k ih =>
    obtain ⟨r1, g1, g2, g3, g4⟩ := ih
    obtain ⟨r2, k1, k2, k3, k4⟩ := halve_float F hu g1 g2
    refine ⟨r2, by rw [Function.iterate_succ_apply']; exact k1, k2, k3.trans g3, ?_⟩
    calc r2 ≤ r1 * (1 / 2 * (1 + u) ^ 2) := k4
      _ ≤ r * (1 / 2 * (1 + u) ^ 2) ^ k * (1 / 2 * (1 + u) ^ 2) := mul_le_mul_of_nonneg_right g4 (by positivity)
      _ = _ := by ring

/-- In every arithmetic of the standard model 34 halvings reach 1e-10. -/
theorem halvingLaw_float (F : FloatLaws α u) (hu : u ≤ 1 / 2048) : HalvingLaw α := by
  intro a h0 h1
  have u0 := F.u_nonneg
  obtain ⟨r, hr, r0⟩ : ∃ r, F.val a = .fin r ∧ 0 < r := by
    rcases F.zero_ltb.1 h0 with h | h
    · rcases F.leb_one h1 with g | ⟨r, g, _⟩ <;> rw [h] at g <;> cases g
    · exact h
  have r1 : r ≤ 1 := by
    rcases F.leb_one h1 with g | ⟨r', g, h⟩ <;> rw [hr] at g <;> cases g
    exact h
  obtain ⟨r', g1, g2, g3, g4⟩ := halve_iter_float F hu 34 hr r0
  obtain ⟨c, hc, c1, c2⟩ := (F.lit (1 / 10 ^ 10)).nonneg (by positivity)
  have : halve^[34] a = (fun a => a * lit (1 / 2))^[34] a := rfl
  rw [← this, F.ltb_iff, g1, hc]
  change r' < c
  push_cast at c1
  have p1 : (1 / 2 * (1 + u) ^ 2) ^ 34 ≤ (1 / 2 * (1 + 1 / 2048) ^ 2 : ℝ) ^ 34 := by
    apply pow_le_pow_left₀ (by positivity)
    apply mul_le_mul_of_nonneg_left _ (by norm_num)
    exact pow_le_pow_left₀ (by linarith) (by linarith) 2
  have p2 : (1 / 2 * (1 + 1 / 2048) ^ 2 : ℝ) ^ 34 < 1 / 10 ^ 10 * (1 - 1 / 2048) := by norm_num
  calc r' ≤ r * (1 / 2 * (1 + u) ^ 2) ^ 34 := g4
    _ ≤ 1 * (1 / 2 * (1 + u) ^ 2) ^ 34 := mul_le_mul_of_nonneg_right r1 (by positivity)
    _ ≤ (1 / 2 * (1 + 1 / 2048) ^ 2 : ℝ) ^ 34 := by rw [one_mul]; exact p1
    _ < 1 / 10 ^ 10 * (1 - 1 / 2048) := p2
    _ ≤ 1 / 10 ^ 10 * (1 - u) := by nlinarith
    _ ≤ c := c1

end FMPC
end Nmpc
