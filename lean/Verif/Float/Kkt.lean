import Verif.Float.Cert
import Verif.FMPC.Generic

/-!
# The KKT error of FMPC in floating-point arithmetic (lemmas)
-/

set_option linter.unusedSectionVars false

namespace Nmpc

variable {α : Type} [Add α] [Sub α] [Mul α] [Div α] [Neg α] [Zero α] [One α] [FOps α] {u : ℝ}

namespace FloatLaws

/-- `a` is a number. -/
def IsNum (F : FloatLaws α u) (a : α) : Prop := ∃ r, F.val a = .fin r

/-- The number `a` stands for (only used together with `IsNum`). -/
noncomputable def num (F : FloatLaws α u) (a : α) : ℝ :=
  match F.val a with
  | .fin r => r
  | _ => 0

variable {F : FloatLaws α u}

theorem num_of {a : α} {r : ℝ} (h : F.val a = .fin r) : F.num a = r := by unfold num; rw [h]

theorem IsNum.val {a : α} (h : F.IsNum a) : F.val a = .fin (F.num a) := by
  obtain ⟨r, hr⟩ := h
  rw [num_of hr, hr]

/-- NaN, plus infinity or a number that is not negative. -/
def NonNegOrBad (F : FloatLaws α u) (a : α) : Prop := F.val a = .nan ∨ F.val a = .pinf ∨ ∃ x, F.val a = .fin x ∧ 0 ≤ x

/-- If `e` is a number then so is `t`, and `c * t ≤ e`. -/
def Dom (F : FloatLaws α u) (c : ℝ) (e t : α) : Prop := ∀ z, F.val e = .fin z → ∃ r, F.val t = .fin r ∧ 0 ≤ r ∧ c * r ≤ z

theorem Dom.mono {c c' : ℝ} {e t : α} (h : F.Dom c e t) (hc : c' ≤ c) : F.Dom c' e t := fun z hz => by
  obtain ⟨r, h1, h2, h3⟩ := h z hz
  exact ⟨r, h1, h2, (mul_le_mul_of_nonneg_right hc h2).trans h3⟩

theorem NonNegOrBad.add (hu : u < 1) {e t : α} (he : F.NonNegOrBad e) (ht : F.NonNegOrBad t) :
    F.NonNegOrBad (e + t) ∧ F.Dom (1 - u) (e + t) t ∧ ∀ {c : ℝ} {s : α}, 0 ≤ c → F.Dom c e s → F.Dom (c * (1 - u)) (e + t) s := by
  have ha := F.add e t
  rcases he with he | he | ⟨x, he, hx⟩
  · rw [he] at ha
    have := ha.nan_left
    exact ⟨.inl this, fun z hz => by (rw [this] at hz; cases hz), fun _ _ z hz => by (rw [this] at hz; cases hz)⟩
  · have : F.val (e + t) = .nan ∨ F.val (e + t) = .pinf := by
      rw [he] at ha
      rcases ht with ht | ht | ⟨y, ht, -⟩ <;> rw [ht] at ha
      · exact .inl ha
      · exact .inr ha
      · exact .inr ha
    refine ⟨this.elim .inl fun h => .inr (.inl h), fun z hz => ?_, fun _ _ z hz => ?_⟩ <;>
    · rcases this with h | h <;> rw [h] at hz <;> cases hz
  · rcases ht with ht | ht | ⟨y, ht, hy⟩
    · rw [ht] at ha
      have := ha.nan_right
      exact ⟨.inl this, fun z hz => by (rw [this] at hz; cases hz), fun _ _ z hz => by (rw [this] at hz; cases hz)⟩
    · rw [he, ht] at ha
      have : F.val (e + t) = .pinf := ha
      exact ⟨.inr (.inl this), fun z hz => by (rw [this] at hz; cases hz), fun _ _ z hz => by (rw [this] at hz; cases hz)⟩
    · obtain ⟨δ, hδ, h⟩ := F.add_fin he ht
      have hd := abs_le.1 hδ
      have h0 : 0 ≤ x + y := by linarith
      have h1 : (x + y) * (1 - u) ≤ (x + y) * (1 + δ) := mul_le_mul_of_nonneg_left (by linarith) h0
      refine ⟨.inr (.inr ⟨_, h, mul_nonneg h0 (by linarith)⟩), fun z hz => ?_, fun {c s} hc hs z hz => ?_⟩
      · rw [h] at hz; cases hz
        refine ⟨y, ht, hy, le_trans ?_ h1⟩
        nlinarith
      · rw [h] at hz; cases hz
        obtain ⟨r, h2, h3, h4⟩ := hs x he
        refine ⟨r, h2, h3, le_trans ?_ h1⟩
        nlinarith

end FloatLaws

theorem ArithLaws.sqNorm_nonNeg {F : FloatLaws α u} (A : ArithLaws F) {n : ℕ} (hn : (1 + u) ^ (n + 2) ≤ 2) (v : Vec n α) :
    F.NonNegOrBad (sqNorm v) := by
  obtain ⟨h1, h2⟩ := A.sqNorm_spec v
  cases hv : F.val (sqNorm v) with
  | nan => exact .inl hv
  | pinf => exact .inr (.inl hv)
  | ninf => exact absurd hv h1
  | fin r =>
    obtain ⟨x, -, hx⟩ := h2 r hv
    refine .inr (.inr ⟨r, hv, le_trans (mul_nonneg (by linarith) ?_) hx⟩)
    exact Finset.sum_nonneg fun i _ => mul_self_nonneg _

/-- A small computed square norm bounds the components. -/
theorem ArithLaws.sqNorm_bound {F : FloatLaws α u} (A : ArithLaws F) {n : ℕ} {v : Vec n α} {r : ℝ}
    (h : F.val (sqNorm v) = .fin r) (hn : (1 + u) ^ (n + 2) ≤ 2) (i : Fin n) :
    ∃ x, F.val (v i) = .fin x ∧ (1 - ((1 + u) ^ (n + 2) - 1)) * x ^ 2 ≤ r := by
  obtain ⟨x, hx, h2⟩ := (A.sqNorm_spec v).2 r h
  refine ⟨x i, hx i, le_trans (mul_le_mul_of_nonneg_left ?_ (by linarith)) h2⟩
  rw [sq]
  exact Finset.single_le_sum (f := fun j => x j * x j) (fun j _ => mul_self_nonneg (x j)) (Finset.mem_univ i)

/-- A product of two vectors that is a number. -/
theorem num_of_dot {F : FloatLaws α u} {k : ℕ} {v w : Vec k α} {z : α} {r : ℝ}
    (hd : FVal.Dot u (fun i => F.val (v i)) (fun i => F.val (w i)) (F.val z)) (hz : F.val z = .fin r) :
    (∀ i, F.IsNum (v i) ∧ F.IsNum (w i)) ∧
    ∃ δ : Fin k → ℝ, (∀ i, |δ i| ≤ (1 + u) ^ (k + 2) - 1) ∧ r = ∑ i, F.num (v i) * F.num (w i) * (1 + δ i) := by
  have h1 : ∀ i, F.IsNum (v i) ∧ F.IsNum (w i) := hd.finite r hz
  obtain ⟨δ, hδ, h⟩ := hd.fin (fun i => F.num (v i)) (fun i => F.num (w i)) (fun i => (h1 i).1.val) (fun i => (h1 i).2.val)
  rw [hz] at h
  injection h with h
  exact ⟨h1, δ, hδ, h⟩

namespace FMPC

open DDP (FDeriv LDeriv VDeriv timeAt)

variable {n : ℕ} {m p : ℕ → ℕ} {N : ℕ} {F : FloatLaws α u}

/-- The computed squared KKT error dominates each of its terms. -/
theorem kktSum_dom (A : ArithLaws F) (hu : u < 1) {d : ℕ} (hd : (1 + u) ^ (d + 2) ≤ 2) (hn : n ≤ d)
    (hm : ∀ i < N, m i ≤ d) (hp : ∀ i < N, p i ≤ d) (x0 : Vec n α) (v : Var n m p α) (co : (i : ℕ) → Coeff n (m i) (p i) α) :
    ∀ k ≤ N,
      let E := forUp k (fun i e => e + sqNorm (co i).xbar + sqNorm (co i).gbar + sqNorm (co i).Lxbar
        + sqNorm (co i).Lubar + sqNorm (complError 0 (v.s i) (v.nu i))) (0 + sqNorm (x0 - v.x 0))
      F.NonNegOrBad E ∧ F.Dom ((1 - u) ^ (5 * k + 1)) E (sqNorm (x0 - v.x 0)) ∧
      ∀ i < k, F.Dom ((1 - u) ^ (5 * k + 1)) E (sqNorm (co i).xbar) ∧ F.Dom ((1 - u) ^ (5 * k + 1)) E (sqNorm (co i).gbar) ∧
        F.Dom ((1 - u) ^ (5 * k + 1)) E (sqNorm (co i).Lxbar) ∧ F.Dom ((1 - u) ^ (5 * k + 1)) E (sqNorm (co i).Lubar) ∧
        F.Dom ((1 - u) ^ (5 * k + 1)) E (sqNorm (complError 0 (v.s i) (v.nu i))) := by
  have hu0 := F.u_nonneg
  have h1u : 0 ≤ 1 - u := by linarith
  have hsq : ∀ {k : ℕ}, k ≤ d → ∀ w : Vec k α, F.NonNegOrBad (sqNorm w) := fun {k} hk w =>
    A.sqNorm_nonNeg ((pow_le_pow_right₀ (by linarith) (by omega)).trans hd) w
  have hpow : ∀ j, 0 ≤ (1 - u) ^ j := fun j => pow_nonneg h1u j
  have hle : ∀ {j k : ℕ}, j ≤ k → (1 - u) ^ k ≤ (1 - u) ^ j := fun h => pow_le_pow_of_le_one h1u (by linarith) h
  intro k
  induction k with
  | zero =>
    intro _
    have h0 : F.NonNegOrBad (0 : α) := .inr (.inr ⟨0, F.zero, le_refl _⟩)
    obtain ⟨h1, h2, -⟩ := h0.add hu (hsq hn (x0 - v.x 0))
    refine ⟨h1, ?_, fun i hi => by omega⟩
    exact h2.mono (by simp)
  | succ k ih =>
    intro hk
    obtain ⟨h1, h2, h3⟩ := ih (by omega)
    dsimp only [forUp] at h1 h2 h3 ⊢
    generalize forUp k (fun i e => e + sqNorm (co i).xbar + sqNorm (co i).gbar + sqNorm (co i).Lxbar
        + sqNorm (co i).Lubar + sqNorm (complError 0 (v.s i) (v.nu i))) (0 + sqNorm (x0 - v.x 0)) = e at h1 h2 h3 ⊢
    obtain ⟨a1, b1, c1⟩ := h1.add hu (hsq hn (co k).xbar)
    obtain ⟨a2, b2, c2⟩ := a1.add hu (hsq (hp k (by omega)) (co k).gbar)
    obtain ⟨a3, b3, c3⟩ := a2.add hu (hsq hn (co k).Lxbar)
    obtain ⟨a4, b4, c4⟩ := a3.add hu (hsq (hm k (by omega)) (co k).Lubar)
    obtain ⟨a5, b5, c5⟩ := a4.add hu (hsq (hp k (by omega)) (complError 0 (v.s k) (v.nu k)))
    have up : ∀ {t : α}, F.Dom ((1 - u) ^ (5 * k + 1)) e t → F.Dom ((1 - u) ^ (5 * (k + 1) + 1)) _ t := fun {t} ht => by
      have := c5 (mul_nonneg (mul_nonneg (mul_nonneg (mul_nonneg (hpow _) h1u) h1u) h1u) h1u)
        (c4 (mul_nonneg (mul_nonneg (mul_nonneg (hpow _) h1u) h1u) h1u)
          (c3 (mul_nonneg (mul_nonneg (hpow _) h1u) h1u) (c2 (mul_nonneg (hpow _) h1u) (c1 (hpow _) ht))))
      refine this.mono (le_of_eq ?_)
      ring
    refine ⟨a5, up h2, fun i hi => ?_⟩
    rcases Nat.lt_succ_iff_lt_or_eq.1 hi with hi | rfl
    · obtain ⟨q1, q2, q3, q4, q5⟩ := h3 i hi
      exact ⟨up q1, up q2, up q3, up q4, up q5⟩
    · have e1 : (1 - u) ^ (5 * (i + 1) + 1) ≤ (1 - u) ^ 5 := hle (by omega)
      have e2 : (1 - u) ^ (5 * (i + 1) + 1) ≤ (1 - u) ^ 4 := hle (by omega)
      have e3 : (1 - u) ^ (5 * (i + 1) + 1) ≤ (1 - u) ^ 3 := hle (by omega)
      have e4 : (1 - u) ^ (5 * (i + 1) + 1) ≤ (1 - u) ^ 2 := hle (by omega)
      have e5 : (1 - u) ^ (5 * (i + 1) + 1) ≤ (1 - u) ^ 1 := hle (by omega)
      refine ⟨?_, ?_, ?_, ?_, ?_⟩
      · refine (c5 (mul_nonneg (mul_nonneg (mul_nonneg h1u h1u) h1u) h1u) (c4 (mul_nonneg (mul_nonneg h1u h1u) h1u)
          (c3 (mul_nonneg h1u h1u) (c2 h1u b1)))).mono (e1.trans (le_of_eq (by ring)))
      · refine (c5 (mul_nonneg (mul_nonneg h1u h1u) h1u) (c4 (mul_nonneg h1u h1u) (c3 h1u b2))).mono
          (e2.trans (le_of_eq (by ring)))
      · refine (c5 (mul_nonneg h1u h1u) (c4 h1u b3)).mono (e3.trans (le_of_eq (by ring)))
      · refine (c5 h1u b4).mono (e4.trans (le_of_eq (by ring)))
      · refine b5.mono (e5.trans (le_of_eq (by ring)))

/-- What a small computed KKT error says about its terms: each computed residual `r` is a number with
`(1-u)^(5N+4) (1-γ) r^2 ≤ θ^2`. -/
theorem kkt_terms (A : ArithLaws F) (hu : u < 1) {d : ℕ} (hd : (1 + u) ^ (d + 2) ≤ 2) (hn : n ≤ d)
    (hm : ∀ i < N, m i ≤ d) (hp : ∀ i < N, p i ≤ d) {x0 : Vec n α} {v : Var n m p α} {co : (i : ℕ) → Coeff n (m i) (p i) α}
    {term : TCoeff n α} {thre : α} {θ : ℝ} (hθ : F.val thre = .fin θ)
    (h : leb (calcKktError N 0 x0 v co term) thre = true) :
    let Small (a : α) : Prop := ∃ r, F.val a = .fin r ∧
      (1 - u) ^ (5 * N + 4) * ((1 - ((1 + u) ^ (d + 2) - 1)) * r ^ 2) ≤ θ ^ 2
    0 ≤ θ ∧ (∀ j, Small ((x0 - v.x 0) j)) ∧ (∀ j, Small (term.Lxbar j)) ∧
    ∀ i < N, (∀ j, Small ((co i).xbar j)) ∧ (∀ j, Small ((co i).gbar j)) ∧ (∀ j, Small ((co i).Lxbar j)) ∧
      (∀ j, Small ((co i).Lubar j)) ∧ ∀ j, Small (complError 0 (v.s i) (v.nu i) j) := by
  intro Small
  have hu0 := F.u_nonneg
  have h1u : 0 ≤ 1 - u := by linarith
  have hpd : ∀ {k : ℕ}, k ≤ d → (1 + u) ^ (k + 2) ≤ (1 + u) ^ (d + 2) := fun hk =>
    pow_le_pow_right₀ (by linarith) (by omega)
  obtain ⟨h1, h2, h3⟩ := kktSum_dom A hu hd hn hm hp x0 v co N (le_refl _)
  unfold calcKktError at h
  generalize forUp N (fun i e => e + sqNorm (co i).xbar + sqNorm (co i).gbar + sqNorm (co i).Lxbar
        + sqNorm (co i).Lubar + sqNorm (complError 0 (v.s i) (v.nu i))) (0 + sqNorm (x0 - v.x 0)) = e at h h1 h2 h3
  have hT := A.sqNorm_nonNeg ((hpd hn).trans hd) term.Lxbar
  obtain ⟨g1, g2, g3⟩ := h1.add hu hT
  have hs := A.sqrt (e + sqNorm term.Lxbar)
  unfold leb at h
  rw [Bool.or_eq_true, F.ltb_iff, F.eqb_iff, hθ] at h
  obtain ⟨X, hX, hX0⟩ : ∃ X, F.val (e + sqNorm term.Lxbar) = .fin X ∧ 0 ≤ X := by
    rcases g1 with g | g | g
    · rw [g] at hs
      rw [show F.val (FOps.sqrt (e + sqNorm term.Lxbar)) = .nan from hs] at h
      simp [FVal.Lt, FVal.Eq] at h
    · rw [g] at hs
      rw [show F.val (FOps.sqrt (e + sqNorm term.Lxbar)) = .pinf from hs] at h
      simp [FVal.Lt, FVal.Eq] at h
    · exact g
  rw [hX] at hs
  obtain ⟨δ, hδ, hk⟩ := hs hX0
  rw [hk] at h
  have hle : Real.sqrt X * (1 + δ) ≤ θ := by
    rcases h with h | h
    · exact le_of_lt h
    · exact le_of_eq h
  have hd1 := abs_le.1 hδ
  have hsX := Real.sqrt_nonneg X
  have hle2 : Real.sqrt X * (1 - u) ≤ θ := le_trans (mul_le_mul_of_nonneg_left (by linarith) hsX) hle
  have hθ0 : 0 ≤ θ := le_trans (mul_nonneg hsX h1u) hle2
  have hX2 : X * (1 - u) ^ 2 ≤ θ ^ 2 := by
    have := pow_le_pow_left₀ (mul_nonneg hsX h1u) hle2 2
    rwa [mul_pow, Real.sq_sqrt hX0] at this
  have fin : ∀ {k : ℕ}, k ≤ d → ∀ w : Vec k α, F.Dom ((1 - u) ^ (5 * N + 2)) (e + sqNorm term.Lxbar) (sqNorm w) →
      ∀ j, Small (w j) := by
    intro k hk w hw j
    obtain ⟨r, hr, hr0, hr1⟩ := hw X hX
    obtain ⟨x, hx, hx2⟩ := A.sqNorm_bound hr ((hpd hk).trans hd) j
    refine ⟨x, hx, ?_⟩
    have q1 : (1 - ((1 + u) ^ (d + 2) - 1)) * x ^ 2 ≤ r := by
      refine le_trans (mul_le_mul_of_nonneg_right ?_ (sq_nonneg x)) hx2
      have := hpd hk
      linarith
    calc (1 - u) ^ (5 * N + 4) * ((1 - ((1 + u) ^ (d + 2) - 1)) * x ^ 2) ≤ (1 - u) ^ (5 * N + 4) * r :=
          mul_le_mul_of_nonneg_left q1 (pow_nonneg h1u _)
      _ = ((1 - u) ^ (5 * N + 2) * r) * (1 - u) ^ 2 := by ring
      _ ≤ X * (1 - u) ^ 2 := mul_le_mul_of_nonneg_right hr1 (by positivity)
      _ ≤ θ ^ 2 := hX2
  have up : ∀ {t : α}, F.Dom ((1 - u) ^ (5 * N + 1)) e t → F.Dom ((1 - u) ^ (5 * N + 2)) (e + sqNorm term.Lxbar) t :=
    fun ht => (g3 (pow_nonneg h1u _) ht).mono (le_of_eq (by ring))
  refine ⟨hθ0, fin hn _ (up h2), fin hn _ (g2.mono ?_), fun i hi => ?_⟩
  · calc (1 - u) ^ (5 * N + 2) ≤ (1 - u) ^ 1 := pow_le_pow_of_le_one h1u (by linarith) (by omega)
      _ = 1 - u := pow_one _
  · obtain ⟨q1, q2, q3, q4, q5⟩ := h3 i hi
    exact ⟨fin hn _ (up q1), fin (hp i hi) _ (up q2), fin hn _ (up q3), fin (hm i hi) _ (up q4), fin (hp i hi) _ (up q5)⟩

/-- From the computed residual to the exact one: `k` further roundings. -/
theorem small_le (hu0 : 0 ≤ u) {d N : ℕ} {W θ y r : ℝ} (hW : W = (5 * N + d + 10 : ℕ) * u) (hW1 : W ≤ 1 / 100) (hθ : 0 ≤ θ)
    (h : (1 - u) ^ (5 * N + 4) * ((1 - ((1 + u) ^ (d + 2) - 1)) * r ^ 2) ≤ θ ^ 2) (hy : (1 - u) ^ 2 * |y| ≤ |r|) :
    |y| ≤ (1 + W) * θ := by
  have hWn : ((5 * N + d + 10 : ℕ) : ℝ) = 5 * N + d + 10 := by push_cast; ring
  rw [hWn] at hW
  have hN : (0 : ℝ) ≤ N := by positivity
  have hdn : (0 : ℝ) ≤ d := by positivity
  have hu1 : u ≤ 1 / 1000 := by nlinarith
  have h1u : 0 ≤ 1 - u := by linarith
  have hW0 : 0 ≤ W := by rw [hW]; positivity
  have g1 : (1 + u) ^ (d + 2) - 1 ≤ 102 / 100 * ((d + 2) * u) := by
    have := pow_u_le (k := d + 2) hu0 (by push_cast; nlinarith)
    push_cast at this
    exact this
  have g2 : 1 - (5 * N + 8) * u ≤ (1 - u) ^ (5 * N + 8) := by
    have := one_add_mul_le_pow (a := -u) (by linarith) (5 * N + 8)
    have h2 : (1 + -u) = 1 - u := by ring
    rw [h2] at this
    push_cast at this
    linarith
  have hy2 : (1 - u) ^ 4 * y ^ 2 ≤ r ^ 2 := by
    have := pow_le_pow_left₀ (by positivity) hy 2
    rw [mul_pow, sq_abs, sq_abs] at this
    calc (1 - u) ^ 4 * y ^ 2 = ((1 - u) ^ 2) ^ 2 * y ^ 2 := by ring
      _ ≤ _ := this
  have ha : 0 ≤ 1 - ((1 + u) ^ (d + 2) - 1) := by nlinarith
  have g3 : (1 - u) ^ (5 * N + 8) * ((1 - ((1 + u) ^ (d + 2) - 1)) * y ^ 2) ≤ θ ^ 2 := by
    refine le_trans (le_of_eq ?_) (le_trans (mul_le_mul_of_nonneg_left (mul_le_mul_of_nonneg_left hy2 ha) (pow_nonneg h1u _)) h)
    ring
  have g4 : 0 ≤ y ^ 2 := sq_nonneg y
  have g5 : (1 - 102 / 100 * W) * y ^ 2 ≤ θ ^ 2 := by
    refine le_trans ?_ g3
    rw [← mul_assoc]
    refine mul_le_mul_of_nonneg_right ?_ g4
    have b1 : (1 - (5 * N + 8) * u) * (1 - 102 / 100 * ((d + 2) * u)) ≤
        (1 - u) ^ (5 * N + 8) * (1 - ((1 + u) ^ (d + 2) - 1)) :=
      mul_le_mul g2 (by linarith) (by nlinarith) (pow_nonneg h1u _)
    refine le_trans ?_ b1
    have b2 : 0 ≤ ((5 * N + 8) * u) * (102 / 100 * ((d + 2) * u)) := by positivity
    have b3 : (5 * N + 8) * u + 102 / 100 * ((d + 2) * u) ≤ 102 / 100 * W := by
      rw [hW]; nlinarith
    nlinarith
  have g6 : y ^ 2 ≤ ((1 + W) * θ) ^ 2 := by
    rw [mul_pow]
    have b4 : 1 ≤ (1 + W) ^ 2 * (1 - 102 / 100 * W) := by
      nlinarith [mul_nonneg hW0 hW0, mul_nonneg (mul_nonneg hW0 hW0) hW0]
    have b5 : (1 - 102 / 100 * W) * y ^ 2 ≤ (1 - 102 / 100 * W) * ((1 + W) ^ 2 * θ ^ 2) := by
      have := mul_le_mul_of_nonneg_right b4 (sq_nonneg θ)
      linarith
    exact le_of_mul_le_mul_left b5 (by linarith)
  exact abs_le_of_sq_le_sq g6 (by positivity)

/-- A computed sum that is a number. -/
theorem num_of_add {a b : α} {r : ℝ} (h : F.val (a + b) = .fin r) :
    F.IsNum a ∧ F.IsNum b ∧ ∃ δ, |δ| ≤ u ∧ r = (F.num a + F.num b) * (1 + δ) := by
  have := F.add a b
  rw [h] at this
  obtain ⟨ha, hb⟩ := this.fin_iff
  have ha : F.IsNum a := ha
  have hb : F.IsNum b := hb
  obtain ⟨δ, hδ, h2⟩ := F.add_fin ha.val hb.val
  rw [h] at h2
  injection h2 with h2
  exact ⟨ha, hb, δ, hδ, h2⟩

theorem num_of_sub {a b : α} {r : ℝ} (h : F.val (a - b) = .fin r) :
    F.IsNum a ∧ F.IsNum b ∧ ∃ δ, |δ| ≤ u ∧ r = (F.num a - F.num b) * (1 + δ) := by
  have := F.sub a b
  rw [h] at this
  obtain ⟨ha, y, hb⟩ := this.fin_iff
  have ha : F.IsNum a := ha
  have hb : F.IsNum b := by
    cases hv : F.val b <;> rw [hv] at hb <;> simp [FVal.neg] at hb
    exact ⟨_, hv⟩
  obtain ⟨δ, hδ, h2⟩ := F.sub_fin ha.val hb.val
  rw [h] at h2
  injection h2 with h2
  exact ⟨ha, hb, δ, hδ, h2⟩

theorem num_of_mul {a b : α} {r : ℝ} (h : F.val (a * b) = .fin r) :
    F.IsNum a ∧ F.IsNum b ∧ ∃ δ, |δ| ≤ u ∧ r = F.num a * F.num b * (1 + δ) := by
  have := F.mul a b
  rw [h] at this
  obtain ⟨ha, hb⟩ := this.fin_iff
  have ha : F.IsNum a := ha
  have hb : F.IsNum b := hb
  obtain ⟨δ, hδ, h2⟩ := F.mul_fin ha.val hb.val
  rw [h] at h2
  injection h2 with h2
  exact ⟨ha, hb, δ, hδ, h2⟩

/-- One rounding. -/
theorem one_rounding (hu0 : 0 ≤ u) (hu : u < 1) {y r δ : ℝ} (hδ : |δ| ≤ u) (h : r = y * (1 + δ)) : (1 - u) ^ 2 * |y| ≤ |r| := by
  have h1 := abs_le.1 hδ
  rw [h, abs_mul, abs_of_nonneg (by linarith : 0 ≤ 1 + δ), mul_comm]
  refine mul_le_mul_of_nonneg_left ?_ (abs_nonneg y)
  nlinarith

/-- Relative errors in the terms of a sum. -/
theorem abs_perturbed {k l : ℕ} {a b η1 η2 γ : ℝ} {x θ : Fin k → ℝ} {y θ' : Fin l → ℝ} (h1 : |η1| ≤ γ) (h2 : |η2| ≤ γ)
    (h3 : ∀ i, |θ i| ≤ γ) (h4 : ∀ i, |θ' i| ≤ γ) :
    |a * (1 + η1) + b * (1 + η2) + ∑ i, x i * (1 + θ i) + ∑ i, y i * (1 + θ' i) - (a + b + ∑ i, x i + ∑ i, y i)| ≤
      γ * (|a| + |b| + ∑ i, |x i| + ∑ i, |y i|) := by
  have e : a * (1 + η1) + b * (1 + η2) + ∑ i, x i * (1 + θ i) + ∑ i, y i * (1 + θ' i) - (a + b + ∑ i, x i + ∑ i, y i) =
      a * η1 + b * η2 + ∑ i, x i * θ i + ∑ i, y i * θ' i := by
    have q1 : ∑ i, x i * (1 + θ i) = ∑ i, x i + ∑ i, x i * θ i := by
      rw [← Finset.sum_add_distrib]; exact Finset.sum_congr rfl fun i _ => by ring
    have q2 : ∑ i, y i * (1 + θ' i) = ∑ i, y i + ∑ i, y i * θ' i := by
      rw [← Finset.sum_add_distrib]; exact Finset.sum_congr rfl fun i _ => by ring
    rw [q1, q2]; ring
  rw [e]
  have t1 : |a * η1| ≤ γ * |a| := by rw [abs_mul, mul_comm]; exact mul_le_mul_of_nonneg_right h1 (abs_nonneg _)
  have t2 : |b * η2| ≤ γ * |b| := by rw [abs_mul, mul_comm]; exact mul_le_mul_of_nonneg_right h2 (abs_nonneg _)
  have t3 : |∑ i, x i * θ i| ≤ γ * ∑ i, |x i| := by
    refine (Finset.abs_sum_le_sum_abs _ _).trans ?_
    rw [Finset.mul_sum]
    refine Finset.sum_le_sum fun i _ => ?_
    rw [abs_mul, mul_comm]; exact mul_le_mul_of_nonneg_right (h3 i) (abs_nonneg _)
  have t4 : |∑ i, y i * θ' i| ≤ γ * ∑ i, |y i| := by
    refine (Finset.abs_sum_le_sum_abs _ _).trans ?_
    rw [Finset.mul_sum]
    refine Finset.sum_le_sum fun i _ => ?_
    rw [abs_mul, mul_comm]; exact mul_le_mul_of_nonneg_right (h4 i) (abs_nonneg _)
  have s1 := abs_add_le (a * η1 + b * η2 + ∑ i, x i * θ i) (∑ i, y i * θ' i)
  have s2 := abs_add_le (a * η1 + b * η2) (∑ i, x i * θ i)
  have s3 := abs_add_le (a * η1) (b * η2)
  nlinarith

theorem num_neg_one : F.num (-1 : α) = -1 := by
  have h : F.val (-1 : α) = .fin (-1) := by rw [F.neg, F.one]; rfl
  exact F.num_of h

/-- The computed stationarity residual with respect to the state. -/
theorem statx_float {k : ℕ} {lam dt lx : α} {fx lam' : Vec n α} {cx nu : Vec k α} {q1 q2 : α} {d : ℕ}
    (hn : n ≤ d) (hk : k ≤ d)
    (hq1 : FVal.Dot u (fun i => F.val (fx i)) (fun i => F.val (lam' i)) (F.val q1))
    (hq2 : FVal.Dot u (fun i => F.val (cx i)) (fun i => F.val (nu i)) (F.val q2))
    {r : ℝ} (h : F.val (-1 * lam + dt * lx + q1 + q2) = .fin r) :
    (F.IsNum lam ∧ F.IsNum dt ∧ F.IsNum lx ∧ (∀ i, F.IsNum (fx i) ∧ F.IsNum (lam' i)) ∧ ∀ i, F.IsNum (cx i) ∧ F.IsNum (nu i)) ∧
    |r - (-F.num lam + F.num dt * F.num lx + ∑ i, F.num (fx i) * F.num (lam' i) + ∑ i, F.num (cx i) * F.num (nu i))| ≤
      ((1 + u) ^ (d + 4) - 1) *
        (|F.num lam| + |F.num dt * F.num lx| + ∑ i, |F.num (fx i) * F.num (lam' i)| + ∑ i, |F.num (cx i) * F.num (nu i)|) := by
  have hu := F.u_nonneg
  obtain ⟨a1, a2, δ5, hδ5, e5⟩ := num_of_add h
  obtain ⟨a3, a4, δ4, hδ4, e4⟩ := num_of_add a1.val
  obtain ⟨a5, a6, δ3, hδ3, e3⟩ := num_of_add a3.val
  obtain ⟨-, a7, δ1, hδ1, e1⟩ := num_of_mul a5.val
  obtain ⟨a8, a9, δ2, hδ2, e2⟩ := num_of_mul a6.val
  obtain ⟨a10, ε, hε, e6⟩ := num_of_dot hq1 a4.val
  obtain ⟨a11, ε', hε', e7⟩ := num_of_dot hq2 a2.val
  refine ⟨⟨a7, a8, a9, a10, a11⟩, ?_⟩
  have one : ∀ {δ : ℝ}, |δ| ≤ u → |δ| ≤ (1 + u) ^ 1 - 1 := fun h => by simpa using h
  have k45 := relErr_mul hu (one hδ4) (one hδ5)
  have k345 := relErr_mul hu (one hδ3) k45
  have k1 := relErr_mul hu (one hδ1) k345
  have k2 := relErr_mul hu (one hδ2) k345
  have k3 := fun i => relErr_mul hu (hε i) k45
  have k4 := fun i => relErr_mul hu (hε' i) (one hδ5)
  rw [num_neg_one] at e1
  have key := abs_perturbed (a := -F.num lam) (b := F.num dt * F.num lx) (x := fun i => F.num (fx i) * F.num (lam' i))
    (y := fun i => F.num (cx i) * F.num (nu i)) (relErr_mono hu k1 (show 1 + (1 + (1 + 1)) ≤ d + 4 by omega))
    (relErr_mono hu k2 (show 1 + (1 + (1 + 1)) ≤ d + 4 by omega))
    (fun i => relErr_mono hu (k3 i) (show n + 2 + (1 + 1) ≤ d + 4 by omega))
    (fun i => relErr_mono hu (k4 i) (show k + 2 + 1 ≤ d + 4 by omega))
  rw [abs_neg] at key
  refine le_trans (le_of_eq ?_) key
  congr 2
  have s1 : ∑ i, F.num (fx i) * F.num (lam' i) * (1 + ((1 + ε i) * (1 + ((1 + δ4) * (1 + δ5) - 1)) - 1)) =
      F.num q1 * ((1 + δ4) * (1 + δ5)) := by
    rw [e6, Finset.sum_mul]
    exact Finset.sum_congr rfl fun i _ => by ring
  have s2 : ∑ i, F.num (cx i) * F.num (nu i) * (1 + ((1 + ε' i) * (1 + δ5) - 1)) = F.num q2 * (1 + δ5) := by
    rw [e7, Finset.sum_mul]
    exact Finset.sum_congr rfl fun i _ => by ring
  rw [s1, s2, e5, e4, e3, e1, e2]
  ring

/-- The computed stationarity residual with respect to the input. -/
theorem statu_float {k : ℕ} {dt lu : α} {fu lam' : Vec n α} {cu nu : Vec k α} {q1 q2 : α} {d : ℕ}
    (hn : n ≤ d) (hk : k ≤ d)
    (hq1 : FVal.Dot u (fun i => F.val (fu i)) (fun i => F.val (lam' i)) (F.val q1))
    (hq2 : FVal.Dot u (fun i => F.val (cu i)) (fun i => F.val (nu i)) (F.val q2))
    {r : ℝ} (h : F.val (dt * lu + q1 + q2) = .fin r) :
    (F.IsNum dt ∧ F.IsNum lu ∧ (∀ i, F.IsNum (fu i) ∧ F.IsNum (lam' i)) ∧ ∀ i, F.IsNum (cu i) ∧ F.IsNum (nu i)) ∧
    |r - (F.num dt * F.num lu + ∑ i, F.num (fu i) * F.num (lam' i) + ∑ i, F.num (cu i) * F.num (nu i))| ≤
      ((1 + u) ^ (d + 4) - 1) *
        (|F.num dt * F.num lu| + ∑ i, |F.num (fu i) * F.num (lam' i)| + ∑ i, |F.num (cu i) * F.num (nu i)|) := by
  have hu := F.u_nonneg
  obtain ⟨a1, a2, δ5, hδ5, e5⟩ := num_of_add h
  obtain ⟨a3, a4, δ4, hδ4, e4⟩ := num_of_add a1.val
  obtain ⟨a8, a9, δ2, hδ2, e2⟩ := num_of_mul a3.val
  obtain ⟨a10, ε, hε, e6⟩ := num_of_dot hq1 a4.val
  obtain ⟨a11, ε', hε', e7⟩ := num_of_dot hq2 a2.val
  refine ⟨⟨a8, a9, a10, a11⟩, ?_⟩
  have one : ∀ {δ : ℝ}, |δ| ≤ u → |δ| ≤ (1 + u) ^ 1 - 1 := fun h => by simpa using h
  have k45 := relErr_mul hu (one hδ4) (one hδ5)
  have k2 := relErr_mul hu (one hδ2) k45
  have k3 := fun i => relErr_mul hu (hε i) k45
  have k4 := fun i => relErr_mul hu (hε' i) (one hδ5)
  have k0 : |(0 : ℝ)| ≤ (1 + u) ^ (d + 4) - 1 := by
    have := one_le_pow_u hu (d + 4)
    rw [abs_zero]; linarith
  have key := abs_perturbed (a := 0) (b := F.num dt * F.num lu) (x := fun i => F.num (fu i) * F.num (lam' i))
    (y := fun i => F.num (cu i) * F.num (nu i)) k0
    (relErr_mono hu k2 (show 1 + (1 + 1) ≤ d + 4 by omega))
    (fun i => relErr_mono hu (k3 i) (show n + 2 + (1 + 1) ≤ d + 4 by omega))
    (fun i => relErr_mono hu (k4 i) (show k + 2 + 1 ≤ d + 4 by omega))
  simp only [zero_mul, zero_add, abs_zero] at key
  refine le_trans (le_of_eq ?_) key
  congr 2
  have s1 : ∑ i, F.num (fu i) * F.num (lam' i) * (1 + ((1 + ε i) * (1 + ((1 + δ4) * (1 + δ5) - 1)) - 1)) =
      F.num q1 * ((1 + δ4) * (1 + δ5)) := by
    rw [e6, Finset.sum_mul]
    exact Finset.sum_congr rfl fun i _ => by ring
  have s2 : ∑ i, F.num (cu i) * F.num (nu i) * (1 + ((1 + ε' i) * (1 + δ5) - 1)) = F.num q2 * (1 + δ5) := by
    rw [e7, Finset.sum_mul]
    exact Finset.sum_congr rfl fun i _ => by ring
  rw [s1, s2, e5, e4, e2]
  ring

/-- The computed complementarity error. -/
theorem compl_float (hu : u < 1) {s nu : α} {r x y : ℝ} (hs : F.val s = .fin x) (hy : F.val nu = .fin y)
    (h : F.val (fmax (s * nu - 0) 0) = .fin r) : (1 - u) ^ 2 * |max (x * y) 0| ≤ |r| := by
  have hu0 := F.u_nonneg
  obtain ⟨δ1, hδ1, h1⟩ := F.mul_fin hs hy
  obtain ⟨δ2, hδ2, h2⟩ := F.sub_fin h1 F.zero
  rw [F.fmax_fin h2 F.zero] at h
  injection h with h
  have b1 := abs_le.1 hδ1
  have b2 := abs_le.1 hδ2
  rw [← h, abs_of_nonneg (le_max_right _ _), abs_of_nonneg (le_max_right _ _), sub_zero]
  rcases le_total (x * y) 0 with hxy | hxy
  · rw [max_eq_right hxy, mul_zero]; exact le_max_right _ _
  · rw [max_eq_left hxy]
    refine le_trans ?_ (le_max_left _ _)
    have q1 : x * y * (1 - u) ≤ x * y * (1 + δ1) := mul_le_mul_of_nonneg_left (by linarith) hxy
    have q2 : 0 ≤ x * y * (1 - u) := mul_nonneg hxy (by linarith)
    have q3 : x * y * (1 - u) * (1 - u) ≤ x * y * (1 + δ1) * (1 + δ2) :=
      mul_le_mul q1 (by linarith) (by linarith) (q2.trans q1)
    calc (1 - u) ^ 2 * (x * y) = x * y * (1 - u) * (1 - u) := by ring
      _ ≤ _ := q3

end FMPC

end Nmpc
