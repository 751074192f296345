import Verif.Float.Binary
import Mathlib.Algebra.BigOperators.Fin
import Mathlib.Algebra.Order.BigOperators.Ring.Finset
import Mathlib.Tactic.Ring
import Mathlib.Tactic.GCongr

/-!
# Sums, products of vectors, square roots and absolute values with rounding

The laws of `Verif.Float.Laws` say nothing about `sum`, `dot`, `mulVec`, `matMul`, `sqrt` and `abs`.  Here these operations
are constrained by the usual componentwise bounds, which hold for every order of summation, for blocked and vectorised
sums and with fused multiply-add: every term of a sum of `n` terms is taken with a relative error of at most
`(1+u)^(n+2) - 1` (two roundings more than necessary, to allow for an accumulator that starts from zero and a final
scaling as in Eigen's matrix-vector kernel).
-/

set_option linter.unusedSectionVars false

namespace Nmpc

namespace FVal

/-- Absolute value. -/
def abs : FVal → FVal
  | .nan => .nan
  | .ninf => .pinf
  | .pinf => .pinf
  | .fin r => .fin |r|

/-- `z` is a possible result of `sqrt(a)` (anything for a negative number). -/
def Sqrt (u : ℝ) : FVal → FVal → Prop
  | .fin x, z => 0 ≤ x → Near u (Real.sqrt x) z
  | .pinf, z => z = .pinf
  | _, z => z = .nan

/-- `z` is a possible result of adding the numbers `v`, in any order. -/
structure Sum (u : ℝ) {n : ℕ} (v : Fin n → FVal) (z : FVal) : Prop where
  fin : ∀ x : Fin n → ℝ, (∀ i, v i = .fin (x i)) →
    ∃ δ : Fin n → ℝ, (∀ i, |δ i| ≤ (1 + u) ^ (n + 2) - 1) ∧ z = .fin (∑ i, x i * (1 + δ i))
  nan : ∀ i, v i = .nan → z = .nan
  finite : ∀ r, z = .fin r → ∀ i, ∃ x, v i = .fin x
  ninf : z = .ninf → ∃ i, v i = .ninf
  pinf : z = .pinf → ∃ i, v i = .pinf

/-- `z` is a possible result of the scalar product of `v` and `w`, added in any order. -/
structure Dot (u : ℝ) {n : ℕ} (v w : Fin n → FVal) (z : FVal) : Prop where
  fin : ∀ x y : Fin n → ℝ, (∀ i, v i = .fin (x i)) → (∀ i, w i = .fin (y i)) →
    ∃ δ : Fin n → ℝ, (∀ i, |δ i| ≤ (1 + u) ^ (n + 2) - 1) ∧ z = .fin (∑ i, x i * y i * (1 + δ i))
  nan : ∀ i, v i = .nan ∨ w i = .nan → z = .nan
  finite : ∀ r, z = .fin r → ∀ i, (∃ x, v i = .fin x) ∧ ∃ y, w i = .fin y
  ninf : z = .ninf → ∃ i, Mul u (v i) (w i) .ninf
  pinf : z = .pinf → ∃ i, Mul u (v i) (w i) .pinf

end FVal

/-- Laws of the operations that `FloatLaws` leaves open (`exp` and `log` excepted). -/
structure ArithLaws {α : Type} [Add α] [Sub α] [Mul α] [Div α] [Neg α] [Zero α] [One α] [FOps α] {u : ℝ}
    (F : FloatLaws α u) : Prop where
  abs : ∀ a, F.val (FOps.abs a) = (F.val a).abs
  sqrt : ∀ a, FVal.Sqrt u (F.val a) (F.val (FOps.sqrt a))
  sum : ∀ {n : ℕ} (v : Vec n α), FVal.Sum u (fun i => F.val (v i)) (F.val (FOps.sum v))
  dot : ∀ {n : ℕ} (v w : Vec n α), FVal.Dot u (fun i => F.val (v i)) (fun i => F.val (w i)) (F.val (FOps.dot v w))
  mulVec : ∀ {m n : ℕ} (A : Mat m n α) (v : Vec n α) (i : Fin m),
    FVal.Dot u (fun j => F.val (A i j)) (fun j => F.val (v j)) (F.val (FOps.mulVec A v i))
  matMul : ∀ {l m n : ℕ} (A : Mat l m α) (B : Mat m n α) (i : Fin l) (j : Fin n),
    FVal.Dot u (fun k => F.val (A i k)) (fun k => F.val (B k j)) (F.val (FOps.matMul A B i j))

/-! ## Elementary facts -/

namespace FVal

variable {u : ℝ}

theorem Add.fin_iff {a b : FVal} {r : ℝ} (h : Add u a b (.fin r)) : (∃ x, a = .fin x) ∧ ∃ y, b = .fin y := by
  cases a <;> cases b <;> simp [Add] at h ⊢

theorem Add.nan_left {b z : FVal} (h : Add u .nan b z) : z = .nan := by cases b <;> exact h

theorem Add.nan_right {a z : FVal} (h : Add u a .nan z) : z = .nan := by cases a <;> exact h

theorem Add.ninf_cases {a b : FVal} (h : Add u a b .ninf) : a = .ninf ∨ b = .ninf := by
  cases a <;> cases b <;> simp [Add, Near] at h ⊢

theorem Add.pinf_cases {a b : FVal} (h : Add u a b .pinf) : a = .pinf ∨ b = .pinf := by
  cases a <;> cases b <;> simp [Add, Near] at h ⊢

theorem Mul.fin_iff {a b : FVal} {r : ℝ} (h : Mul u a b (.fin r)) : (∃ x, a = .fin x) ∧ ∃ y, b = .fin y := by
  rcases a with _ | _ | _ | x <;> rcases b with _ | _ | _ | y <;> simp [Mul, InfMul, Positive, Negative] at h ⊢
  all_goals exact h.2.2 (le_antisymm h.1 h.2.1)

theorem Mul.nan_left {b z : FVal} (h : Mul u .nan b z) : z = .nan := by cases b <;> exact h

theorem Mul.nan_right {a z : FVal} (h : Mul u a .nan z) : z = .nan := by cases a <;> exact h

/-- A square is not minus infinity. -/
theorem Mul.self_ninf {a : FVal} : ¬ Mul u a a .ninf := by
  cases a <;> simp [Mul, InfMul, Positive, Negative, Near]

/-- A square is a number only if the factor is. -/
theorem Mul.ninf_right {a : FVal} {y : ℝ} {z : FVal} (h : Mul u a (.fin y) z) (hz : z = .ninf) : a = .ninf ∨ a = .pinf := by
  subst hz
  cases a <;> simp [Mul, Near] at h ⊢

end FVal

theorem one_le_pow_u {u : ℝ} (hu : 0 ≤ u) (k : ℕ) : 1 ≤ (1 + u) ^ k := one_le_pow₀ (by linarith)

/-- Two relative errors in a row. -/
theorem relErr_mul {u a b : ℝ} {j k : ℕ} (hu : 0 ≤ u) (ha : |a| ≤ (1 + u) ^ j - 1) (hb : |b| ≤ (1 + u) ^ k - 1) :
    |(1 + a) * (1 + b) - 1| ≤ (1 + u) ^ (j + k) - 1 := by
  have h1 : (1 + a) * (1 + b) - 1 = a + b + a * b := by ring
  have h2 : |a + b + a * b| ≤ |a| + |b| + |a| * |b| := by
    refine (abs_add_le _ _).trans ?_
    rw [abs_mul]
    have := abs_add_le a b
    linarith
  have h3 : |a| * |b| ≤ ((1 + u) ^ j - 1) * ((1 + u) ^ k - 1) :=
    mul_le_mul ha hb (abs_nonneg _) (by have := one_le_pow_u hu j; linarith)
  rw [h1, pow_add]
  nlinarith

theorem relErr_mono {u a : ℝ} {j k : ℕ} (hu : 0 ≤ u) (ha : |a| ≤ (1 + u) ^ j - 1) (h : j ≤ k) :
    |a| ≤ (1 + u) ^ k - 1 := by
  have : (1 + u) ^ j ≤ (1 + u) ^ k := pow_le_pow_right₀ (by linarith) h
  linarith

section Fold
variable {α : Type} [Add α] [Sub α] [Mul α] [Div α] [Neg α] [Zero α] [One α] [FOps α] {u : ℝ} (F : FloatLaws α u)

/-- Addition from the first to the last term. -/
def foldSum {n : ℕ} (s : α) (v : Vec n α) : α := ((List.finRange n).map v).foldl (· + ·) s

theorem foldSum_zero (s : α) (v : Vec 0 α) : foldSum s v = s := rfl

theorem foldSum_succ {n : ℕ} (s : α) (v : Vec (n + 1) α) : foldSum s v = foldSum (s + v 0) fun i => v i.succ := by
  unfold foldSum
  rw [List.finRange_succ]
  simp [List.map_map, Function.comp_def]

theorem foldSum_fin {n : ℕ} (s : α) (v : Vec n α) {r : ℝ} {x : Fin n → ℝ} (hs : F.val s = .fin r)
    (hv : ∀ i, F.val (v i) = .fin (x i)) :
    ∃ (δ : ℝ) (ε : Fin n → ℝ), |δ| ≤ (1 + u) ^ n - 1 ∧ (∀ i, |ε i| ≤ (1 + u) ^ n - 1) ∧
      F.val (foldSum s v) = .fin (r * (1 + δ) + ∑ i, x i * (1 + ε i)) := by
  induction n generalizing s r with
  | zero => exact ⟨0, fun _ => 0, by simp, by simp, by simp [foldSum_zero, hs]⟩
  | succ n ih =>
    obtain ⟨η, hη, h1⟩ := F.add_fin hs (hv 0)
    obtain ⟨δ, ε, hδ, hε, h2⟩ := ih (s + v 0) (fun i => v i.succ) (x := fun i => x i.succ) h1 (fun i => hv i.succ)
    have hu := F.u_nonneg
    have h3 : |(1 + η) * (1 + δ) - 1| ≤ (1 + u) ^ (n + 1) - 1 := by
      rw [add_comm n 1]
      exact relErr_mul hu (by simpa using hη) hδ
    refine ⟨(1 + η) * (1 + δ) - 1, Fin.cons ((1 + η) * (1 + δ) - 1) ε, h3, ?_, ?_⟩
    · refine Fin.cases ?_ fun i => ?_
      · simpa using h3
      · simpa using relErr_mono hu (hε i) (Nat.le_succ n)
    · rw [foldSum_succ, h2]
      congr 1
      rw [Fin.sum_univ_succ]
      simp only [Fin.cons_zero, Fin.cons_succ]
      ring

theorem foldSum_nan_start {n : ℕ} (s : α) (v : Vec n α) (hs : F.val s = .nan) : F.val (foldSum s v) = .nan := by
  induction n generalizing s with
  | zero => exact hs
  | succ n ih =>
    rw [foldSum_succ]
    refine ih _ _ ?_
    have := F.add s (v 0)
    rw [hs] at this
    exact this.nan_left

theorem foldSum_nan {n : ℕ} (s : α) (v : Vec n α) (i : Fin n) (hv : F.val (v i) = .nan) :
    F.val (foldSum s v) = .nan := by
  induction n generalizing s with
  | zero => exact i.elim0
  | succ n ih =>
    rw [foldSum_succ]
    refine Fin.cases (fun hv => ?_) (fun i hv => ih _ _ i hv) i hv
    refine foldSum_nan_start F _ _ ?_
    have := F.add s (v 0)
    rw [hv] at this
    exact this.nan_right

theorem foldSum_finite {n : ℕ} (s : α) (v : Vec n α) {r : ℝ} (h : F.val (foldSum s v) = .fin r) :
    (∃ x, F.val s = .fin x) ∧ ∀ i, ∃ x, F.val (v i) = .fin x := by
  induction n generalizing s with
  | zero => exact ⟨⟨r, h⟩, fun i => i.elim0⟩
  | succ n ih =>
    rw [foldSum_succ] at h
    obtain ⟨⟨x, hx⟩, h2⟩ := ih _ _ h
    have := F.add s (v 0)
    rw [hx] at this
    obtain ⟨h3, h4⟩ := this.fin_iff
    exact ⟨h3, Fin.cases h4 h2⟩

theorem foldSum_ninf {n : ℕ} (s : α) (v : Vec n α) (h : F.val (foldSum s v) = .ninf) :
    F.val s = .ninf ∨ ∃ i, F.val (v i) = .ninf := by
  induction n generalizing s with
  | zero => exact .inl h
  | succ n ih =>
    rw [foldSum_succ] at h
    rcases ih _ _ h with h1 | ⟨i, hi⟩
    · have := F.add s (v 0)
      rw [h1] at this
      rcases this.ninf_cases with h2 | h2
      · exact .inl h2
      · exact .inr ⟨0, h2⟩
    · exact .inr ⟨i.succ, hi⟩

theorem foldSum_pinf {n : ℕ} (s : α) (v : Vec n α) (h : F.val (foldSum s v) = .pinf) :
    F.val s = .pinf ∨ ∃ i, F.val (v i) = .pinf := by
  induction n generalizing s with
  | zero => exact .inl h
  | succ n ih =>
    rw [foldSum_succ] at h
    rcases ih _ _ h with h1 | ⟨i, hi⟩
    · have := F.add s (v 0)
      rw [h1] at this
      rcases this.pinf_cases with h2 | h2
      · exact .inl h2
      · exact .inr ⟨0, h2⟩
    · exact .inr ⟨i.succ, hi⟩

end Fold

/-! ## Exact arithmetic -/

/-- Exact real arithmetic satisfies the laws with `u = 0`. -/
theorem arithLaws_real : ArithLaws floatLaws_real := by
  have hd : ∀ {n : ℕ} (v w : Vec n ℝ), FVal.Dot 0 (fun i => floatLaws_real.val (v i)) (fun i => floatLaws_real.val (w i))
      (floatLaws_real.val (∑ i, v i * w i)) := fun v w =>
    { fin := fun x y hx hy => ⟨fun _ => 0, by simp, by
        have h1 : ∀ i, v i = x i := fun i => by simpa [floatLaws_real] using hx i
        have h2 : ∀ i, w i = y i := fun i => by simpa [floatLaws_real] using hy i
        simp [floatLaws_real, h1, h2]⟩
      nan := fun i h => by simp [floatLaws_real] at h
      finite := fun r h i => ⟨⟨v i, rfl⟩, w i, rfl⟩
      ninf := fun h => by simp [floatLaws_real] at h
      pinf := fun h => by simp [floatLaws_real] at h }
  refine ⟨fun a => rfl, fun a => fun _ => ⟨0, by simp, by simp [floatLaws_real]⟩, fun v => ?_, fun v w => hd v w, fun A v i => hd (A i) v,
    fun A B i j => hd (A i) fun k => B k j⟩
  exact
    { fin := fun x hx => ⟨fun _ => 0, by simp, by
        have h1 : ∀ i, v i = x i := fun i => by simpa [floatLaws_real] using hx i
        simp [floatLaws_real, h1]⟩
      nan := fun i h => by simp [floatLaws_real] at h
      finite := fun r h i => ⟨v i, rfl⟩
      ninf := fun h => by simp [floatLaws_real] at h
      pinf := fun h => by simp [floatLaws_real] at h }

/-! ## Rounding to `p` bits -/

section Bin
variable {p : ℕ}

theorem Bin.sumList_succ {n : ℕ} (v : Vec (n + 1) (Bin p)) :
    Bin.sumList ((List.finRange (n + 1)).map v) = foldSum (v 0) fun i => v i.succ := by
  unfold foldSum
  rw [List.finRange_succ]
  simp [Bin.sumList, List.map_map, Function.comp_def]

theorem Bin.sum_spec {n : ℕ} (v : Vec n (Bin p)) : 
    (∀ x : Fin n → ℝ, (∀ i, (floatLaws_bin p).val (v i) = .fin (x i)) → ∃ δ : Fin n → ℝ,
      (∀ i, |δ i| ≤ (1 + (1 / 2) ^ p) ^ n - 1) ∧
      (floatLaws_bin p).val (Bin.sumList ((List.finRange n).map v)) = .fin (∑ i, x i * (1 + δ i))) ∧
    (∀ i, (floatLaws_bin p).val (v i) = .nan → (floatLaws_bin p).val (Bin.sumList ((List.finRange n).map v)) = .nan) ∧
    (∀ r, (floatLaws_bin p).val (Bin.sumList ((List.finRange n).map v)) = .fin r →
      ∀ i, ∃ x, (floatLaws_bin p).val (v i) = .fin x) ∧
    ((floatLaws_bin p).val (Bin.sumList ((List.finRange n).map v)) = .ninf →
      ∃ i, (floatLaws_bin p).val (v i) = .ninf) ∧
    ((floatLaws_bin p).val (Bin.sumList ((List.finRange n).map v)) = .pinf →
      ∃ i, (floatLaws_bin p).val (v i) = .pinf) := by
  cases n with
  | zero =>
    have h0 : (floatLaws_bin p).val (Bin.sumList ((List.finRange 0).map v)) = .fin 0 := (floatLaws_bin p).zero
    rw [h0]
    exact ⟨fun x _ => ⟨fun _ => 0, fun i => i.elim0, by simp⟩, fun i => i.elim0, fun _ _ i => i.elim0, fun h => (by cases h),
      fun h => (by cases h)⟩
  | succ n =>
    rw [Bin.sumList_succ]
    refine ⟨fun x hx => ?_, fun i => ?_, fun r h => ?_, fun h => ?_, fun h => ?_⟩
    · obtain ⟨δ, ε, h1, h2, h3⟩ := foldSum_fin (floatLaws_bin p) (v 0) (fun i => v i.succ) (hx 0) (fun i => hx i.succ)
      have hu := (floatLaws_bin p).u_nonneg
      refine ⟨Fin.cons δ ε, fun i => ?_, ?_⟩
      · refine Fin.cases ?_ (fun i => ?_) i
        · simpa using relErr_mono hu h1 (Nat.le_succ n)
        · simpa using relErr_mono hu (h2 i) (Nat.le_succ n)
      · rw [h3, Fin.sum_univ_succ]; simp
    · refine Fin.cases (fun h => foldSum_nan_start _ _ _ h) (fun i h => foldSum_nan _ _ _ i h) i
    · obtain ⟨h1, h2⟩ := foldSum_finite _ _ _ h
      exact Fin.cases h1 h2
    · rcases foldSum_ninf _ _ _ h with h | ⟨i, h⟩
      · exact ⟨0, h⟩
      · exact ⟨i.succ, h⟩
    · rcases foldSum_pinf _ _ _ h with h | ⟨i, h⟩
      · exact ⟨0, h⟩
      · exact ⟨i.succ, h⟩

theorem Bin.dot_spec {n : ℕ} (v w : Vec n (Bin p)) :
    FVal.Dot ((1 / 2) ^ p) (fun i => (floatLaws_bin p).val (v i)) (fun i => (floatLaws_bin p).val (w i))
      ((floatLaws_bin p).val (Bin.dotF v w)) := by
  obtain ⟨h1, h2, h3, h4, h5⟩ := Bin.sum_spec (p := p) fun i => v i * w i
  have hu := (floatLaws_bin p).u_nonneg
  have hm := fun i => (floatLaws_bin p).mul (v i) (w i)
  refine ⟨fun x y hx hy => ?_, fun i h => h2 i ?_, fun r h i => ?_, fun h => ?_, fun h => ?_⟩
  · choose η hη hv using fun i => (floatLaws_bin p).mul_fin (hx i) (hy i)
    obtain ⟨δ, hδ, h⟩ := h1 _ hv
    refine ⟨fun i => (1 + η i) * (1 + δ i) - 1, fun i => ?_, ?_⟩
    · have := relErr_mul (j := 1) hu (by simpa using hη i) (hδ i)
      exact relErr_mono hu this (by omega)
    · refine h.trans ?_
      congr 1
      exact Finset.sum_congr rfl fun i _ => by ring
  · rcases h with h | h
    · have := hm i; rw [h] at this; exact this.nan_left
    · have := hm i; rw [h] at this; exact this.nan_right
  · obtain ⟨x, hx⟩ := h3 r h i
    have := hm i
    rw [hx] at this
    exact this.fin_iff
  · obtain ⟨i, hi⟩ := h4 h
    refine ⟨i, ?_⟩
    have := hm i
    rw [hi] at this
    exact this
  · obtain ⟨i, hi⟩ := h5 h
    refine ⟨i, ?_⟩
    have := hm i
    rw [hi] at this
    exact this

/-- The square root computed by `Bin.sqrt` has a relative error of at most `2^-p`. -/
theorem rsqrt_near (p : ℕ) {q : ℚ} (hq : 0 < q) : |(rsqrt p q : ℝ) - Real.sqrt q| ≤ (1 / 2) ^ p * Real.sqrt q := by
  unfold rsqrt
  dsimp only
  set k : ℤ := Int.log 2 q / 2 with hk
  set e : ℚ := 2 ^ (k + 1 - p) with he
  have he0 : 0 < e := by rw [he]; positivity
  set y : ℚ := q / e ^ 2 with hy
  have hy0 : 0 < y := by rw [hy]; positivity
  set m : ℕ := Nat.sqrt ⌊y⌋₊ with hm
  have hm1 : ((m : ℚ)) ^ 2 ≤ y := by
    have h1 : m ^ 2 ≤ ⌊y⌋₊ := Nat.sqrt_le' _
    have h2 : (⌊y⌋₊ : ℚ) ≤ y := Nat.floor_le hy0.le
    have h3 : ((m ^ 2 : ℕ) : ℚ) ≤ (⌊y⌋₊ : ℚ) := by exact_mod_cast h1
    push_cast at h3
    linarith
  have hm2 : y < ((m : ℚ) + 1) ^ 2 := by
    have h1 : ⌊y⌋₊ < (m + 1) ^ 2 := Nat.lt_succ_sqrt' _
    have h2 : y < (⌊y⌋₊ : ℚ) + 1 := Nat.lt_floor_add_one y
    have h3 : ((⌊y⌋₊ + 1 : ℕ) : ℚ) ≤ (((m + 1) ^ 2 : ℕ) : ℚ) := by exact_mod_cast h1
    push_cast at h3
    linarith
  have hqe : Real.sqrt q = Real.sqrt y * e := by
    have : (q : ℝ) = y * (e : ℝ) ^ 2 := by
      have : q = y * e ^ 2 := by rw [hy]; field_simp
      exact_mod_cast this
    rw [this, Real.sqrt_mul (by exact_mod_cast hy0.le), Real.sqrt_sq (by exact_mod_cast he0.le)]
  have heR : (0 : ℝ) < e := by exact_mod_cast he0
  have hm1R : (m : ℝ) ^ 2 ≤ y := by exact_mod_cast hm1
  have hm2R : (y : ℝ) < ((m : ℝ) + 1) ^ 2 := by exact_mod_cast hm2
  have hl : (m : ℝ) ≤ Real.sqrt y := Real.le_sqrt_of_sq_le hm1R
  have hr : Real.sqrt y ≤ (m : ℝ) + 1 := Real.sqrt_le_iff.2 ⟨by positivity, hm2R.le⟩
  -- the rounded integer is within one half
  have hhalf : |((if ((m : ℚ) + 1 / 2) ^ 2 < y then m + 1 else m : ℕ) : ℝ) - Real.sqrt y| ≤ 1 / 2 := by
    split
    · rename_i h
      have h' : ((m : ℝ) + 1 / 2) ^ 2 < y := by
        have := (Rat.cast_lt (K := ℝ)).2 h
        push_cast at this
        exact this
      have : (m : ℝ) + 1 / 2 ≤ Real.sqrt y := Real.le_sqrt_of_sq_le h'.le
      push_cast
      rw [abs_le]; constructor <;> linarith
    · rename_i h
      have h' : (y : ℝ) ≤ ((m : ℝ) + 1 / 2) ^ 2 := by
        have := (Rat.cast_le (K := ℝ)).2 (not_lt.1 h)
        push_cast at this
        exact this
      have : Real.sqrt y ≤ (m : ℝ) + 1 / 2 := Real.sqrt_le_iff.2 ⟨by positivity, h'⟩
      rw [abs_le]; constructor <;> linarith
  -- the unit in the last place is small relative to the root
  have hbig : (e : ℝ) ≤ (1 / 2) ^ p * 2 * Real.sqrt q := by
    have h1 : (2 : ℚ) ^ Int.log 2 q ≤ q := Int.zpow_log_le_self (by norm_num) hq
    have h2 : ((2 : ℚ) ^ k) ^ 2 ≤ q := by
      refine le_trans ?_ h1
      rw [← zpow_natCast, ← zpow_mul]
      refine zpow_le_zpow_right₀ (by norm_num) ?_
      push_cast
      omega
    have h3 : ((2 : ℝ) ^ k) ^ 2 ≤ (q : ℝ) := by
      have := (Rat.cast_le (K := ℝ)).2 h2
      push_cast at this
      exact this
    have h4 : (2 : ℝ) ^ k ≤ Real.sqrt q := Real.le_sqrt_of_sq_le h3
    have h5 : (e : ℝ) = (1 / 2) ^ p * 2 * 2 ^ k := by
      rw [he]
      push_cast
      rw [zpow_sub₀ (by norm_num), zpow_add₀ (by norm_num)]
      simp
      ring
    rw [h5]
    gcongr
  generalize (if ((m : ℚ) + 1 / 2) ^ 2 < y then m + 1 else m : ℕ) = j at hhalf ⊢
  push_cast
  rw [hqe] at hbig ⊢
  rw [show ∀ a b c : ℝ, a * b - c * b = (a - c) * b by intros; ring, abs_mul, abs_of_pos heR]
  calc _ ≤ 1 / 2 * (e : ℝ) := mul_le_mul_of_nonneg_right hhalf heR.le
    _ ≤ _ := by linarith

theorem XQ.sqrt_spec (p : ℕ) (a : XQ) : FVal.Sqrt ((1 / 2) ^ p) a.fval (Bin.sqrt p a).fval := by
  cases a with
  | fin q =>
    intro h
    have hq : 0 ≤ q := by exact_mod_cast h
    rcases hq.eq_or_lt with rfl | h0
    · simp only [Bin.sqrt, lt_irrefl, if_false, if_true, XQ.fval]
      exact ⟨0, by simp, by simp⟩
    · simp only [Bin.sqrt, not_lt.2 hq, h0.ne', if_false, XQ.fval]
      refine FVal.Near.of_bounds (by positivity) ?_
      rw [abs_of_nonneg (Real.sqrt_nonneg _)]
      exact rsqrt_near p h0
  | nzero => intro _; simp only [Bin.sqrt, XQ.fval]; exact ⟨0, by simp, by simp⟩
  | _ => rfl

theorem XQ.fval_abs (a : XQ) : (XQ.abs a).fval = a.fval.abs := by
  cases a <;> simp [XQ.abs, XQ.fval, FVal.abs]

/-- Rounding to `p` bits satisfies the laws, with sums and products added from the first to the last term. -/
theorem arithLaws_bin (p : ℕ) : ArithLaws (floatLaws_bin p) where
  abs a := XQ.fval_abs _
  sqrt a := XQ.sqrt_spec p a.x
  sum v := by
    obtain ⟨h1, h2, h3, h4, h5⟩ := Bin.sum_spec (p := p) v
    have hu := (floatLaws_bin p).u_nonneg
    refine ⟨fun x hx => ?_, h2, h3, h4, h5⟩
    obtain ⟨δ, hδ, h⟩ := h1 x hx
    exact ⟨δ, fun i => relErr_mono hu (hδ i) (by omega), h⟩
  dot v w := Bin.dot_spec v w
  mulVec A v i := Bin.dot_spec (A i) v
  matMul A B i j := Bin.dot_spec (A i) fun k => B k j

end Bin

end Nmpc
