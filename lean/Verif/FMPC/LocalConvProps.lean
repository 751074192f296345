import Verif.FMPC.LocalConv
import Verif.FMPC.Total

/-!
# FMPC: linear convergence near a strictly complementary solution of a quadratic program (C121)
-/

set_option linter.unusedSectionVars false

namespace Nmpc.FMPC

open DDP (FDeriv LDeriv VDeriv timeAt)
open Matrix Finset

section Props
variable {n : ℕ} {m p : ℕ → ℕ} {L : GainSolver ℝ} {N : ℕ} {cfg : Config ℝ} {S : Stages n m p ℝ} {x0 : Vec n ℝ}
variable {D : LQData n m} {C : (i : ℕ) → Mat (p i) n ℝ} {E : (i : ℕ) → Mat (p i) (m i) ℝ} {c : (i : ℕ) → Vec (p i) ℝ}

/-- The points from which the iteration converges: positive slacks and multipliers, whose distance from those of the solution
`z` is small compared with the root of the next barrier parameter, no complementarity product above 100 barrier parameters,
and a barrier parameter that is small compared with the constants of the problem. -/
structure InBasin (N : ℕ) (z v : Var n m p ℝ) (K σ : ℝ) : Prop where
  pos : v.Pos N
  near : ∃ d : ℝ, 0 ≤ d ∧ 64 * d ^ 2 ≤ barrierOf N p v.s v.nu ∧ Near N v z d
  products : ∀ i < N, ∀ j, v.s i j * v.nu i j ≤ 100 * barrierOf N p v.s v.nu
  small : 256 * K ^ 2 * barrierOf N p v.s v.nu ≤ 1
  gap : barrierOf N p v.s v.nu ≤ σ ^ 2

/-- The configuration and the problem: exact solution of the gain systems, convex quadratic program with at least one
inequality in each step, barrier update on, line search off. -/
structure LocalSetup (L : GainSolver ℝ) (N : ℕ) (cfg : Config ℝ) (S : Stages n m p ℝ) (x0 : Vec n ℝ) (D : LQData n m)
    (C : (i : ℕ) → Mat (p i) n ℝ) (E : (i : ℕ) → Mat (p i) (m i) ℝ) (c : (i : ℕ) → Vec (p i) ℝ) (z : Var n m p ℝ)
    (K σ : ℝ) : Prop where
  gain : ExactGain L
  dt_pos : 0 < S.dt
  qp : IsQP N S D C E c
  update : cfg.updateBarrierEps = true
  noLineSearch : cfg.enableLineSearch = false
  ineqs : ∀ i < N, 0 < p i
  steps : 0 < N
  kkt : KktPoint x0 N S D C E z
  K_nonneg : 0 ≤ K
  bound : ErrorBound N S.dt D C E z K
  σ_pos : 0 < σ
  strict : ∀ i < N, ∀ j, σ ≤ z.s i j ∨ σ ≤ z.nu i j

variable {z : Var n m p ℝ} {K σ : ℝ}

theorem LocalSetup.count (H : LocalSetup L N cfg S x0 D C E c z K σ) : 0 < ∑ i ∈ range N, p i :=
  sum_pos (fun i hi => H.ineqs i (mem_range.1 hi)) ⟨0, mem_range.2 H.steps⟩

/-- **C121**, one iteration inside the basin: it takes the full Newton step, which leaves no primal and no stationarity
residual, complementarity products within 1/16 of the barrier parameter `e` and slacks and multipliers within `√e / 15` of the
solution; the point is again in the basin and the next barrier parameter is at most `max (17/32 e) 1e-8`. -/
theorem C121_step (H : LocalSetup L N cfg S x0 D C E c z K σ) {iter : ℕ} {w w' : Solver n m p ℝ}
    (hb : InBasin N z w.var K σ) (h : procOnce L N cfg S x0 iter w = .ok (w', .iterationContinued)) :
    w'.eps = barrierOf N p w.var.s w.var.nu ∧ NoResidual x0 N S D C E w'.var ∧
      (∀ i < N, ∀ j, |w'.var.s i j * w'.var.nu i j - w'.eps| ≤ w'.eps / 16) ∧
      Near N w'.var z (Real.sqrt w'.eps / 15) ∧ InBasin N z w'.var K σ ∧
      barrierOf N p w'.var.s w'.var.nu ≤ max (1 / 10 ^ 8) (17 / 32 * w'.eps) := by
  have he := C34_value H.update h
  obtain ⟨d, hd0, hd1, hd⟩ := hb.near
  have hsm := hb.small
  have hgp := hb.gap
  have hpr := hb.products
  rw [← he] at hd1 hsm hgp hpr
  have hlo : 1 / 10 ^ 8 ≤ w'.eps := by rw [he]; exact le_max_left _ _
  have hhi : w'.eps ≤ 10 ^ 6 := by rw [he]; exact max_le (by norm_num) (min_le_left _ _)
  have hpos : 0 < w'.eps := lt_of_lt_of_le (by norm_num) hlo
  set r := Real.sqrt w'.eps with hr
  have hr2 : r ^ 2 = w'.eps := Real.sq_sqrt hpos.le
  have hr0 : 0 < r := Real.sqrt_pos.2 hpos
  have hKr : 16 * (K * r) ≤ 1 := by
    have : (16 * (K * r)) ^ 2 ≤ 1 ^ 2 := by rw [← hr2] at hsm; linarith [hsm]
    exact (abs_le_of_sq_le_sq' this one_pos.le).2
  have hdr : 8 * d ≤ r := by
    have : (8 * d) ^ 2 ≤ r ^ 2 := by rw [hr2]; linarith
    exact (abs_le_of_sq_le_sq' this hr0.le).2
  have hrσ : r ≤ σ := by
    have : r ^ 2 ≤ σ ^ 2 := by rw [hr2]; exact hgp
    exact (abs_le_of_sq_le_sq' this H.σ_pos.le).2
  obtain ⟨hn, hpos', aS, aNu, -, -, -, -, a5, a6, g1, g2⟩ := iteration_step H.gain H.dt_pos H.qp.costs hb.pos h
  have hfull := newton_full H.qp hn
  have ecompl : ∀ i < N, ∀ j, w.var.s i j * (w.var.addSmul 1 w'.delta).nu i j + w.var.nu i j * (w.var.addSmul 1 w'.delta).s i j
      = w'.eps + w.var.s i j * w.var.nu i j := by
    intro i hi j
    have := hn.compl i hi j
    simp only [Var.addSmul, Pi.add_apply, Pi.smul_apply, smul_eq_mul, one_mul]
    linear_combination this
  have hnear := newton_near H.qp H.kkt H.bound H.K_nonneg hfull hpos hr0.le hr2 hd0 hKr hdr ecompl hd
  have hkeep : ∀ i < N, ∀ j, 5 / 1000 * w.var.s i j ≤ w.var.s i j + w'.delta.s i j ∧
      5 / 1000 * w.var.nu i j ≤ w.var.nu i j + w'.delta.nu i j := by
    intro i hi j
    have hc := ecompl i hi j
    obtain ⟨n1, n2⟩ := hnear i hi j
    obtain ⟨d1, d2⟩ := hd i hi j
    simp only [Var.addSmul, Pi.add_apply, Pi.smul_apply, smul_eq_mul, one_mul] at hc n1 n2
    have hz := H.kkt.compl i hi j
    rcases H.strict i hi j with hs | hs
    · have h0 : z.nu i j = 0 := (mul_eq_zero.1 hz).resolve_left (by have := H.σ_pos; linarith)
      rw [h0] at d2 n2
      exact (pair_active (hb.pos.2 i hi j) (hb.pos.1 i hi j) hr0 hr2 (hrσ.trans hs) hdr d2 d1 n1 (by linarith)
        (by rw [mul_comm]; exact hpr i hi j)).symm
    · have h0 : z.s i j = 0 := (mul_eq_zero.1 hz).resolve_right (by have := H.σ_pos; linarith)
      rw [h0] at d1 n1
      exact pair_active (hb.pos.1 i hi j) (hb.pos.2 i hi j) hr0 hr2 (hrσ.trans hs) hdr d1 d2 n2 (by linarith) (hpr i hi j)
  obtain rfl : aNu = 1 := a5.trans (alphaMax_one fun i hi j => (hkeep i hi j).2)
  obtain rfl : aS = 1 := (a6 H.noLineSearch).trans (alphaMax_one fun i hi j => (hkeep i hi j).1)
  obtain ⟨hres, hprod⟩ := C101_full_step H.gain H.dt_pos H.qp hb.pos h H.noLineSearch (fun i hi j => (hkeep i hi j).1)
    (fun i hi j => (hkeep i hi j).2)
  have hnear' : Near N w'.var z (r / 15) := by
    intro i hi j
    have := hnear i hi j
    obtain ⟨e1, e2, -⟩ := g1 i hi
    rw [e1, e2]
    exact this
  have hprod' : ∀ i < N, ∀ j, |w'.var.s i j * w'.var.nu i j - w'.eps| ≤ w'.eps / 16 := by
    intro i hi j
    rw [hprod i hi j, abs_mul]
    obtain ⟨n1, n2⟩ := hnear i hi j
    obtain ⟨d1, d2⟩ := hd i hi j
    simp only [Var.addSmul, Pi.add_apply, Pi.smul_apply, smul_eq_mul, one_mul] at n1 n2
    have b1 : |w'.delta.s i j| ≤ r / 5 := by
      rw [abs_le] at n1 d1 ⊢
      constructor <;> linarith [n1.1, n1.2, d1.1, d1.2]
    have b2 : |w'.delta.nu i j| ≤ r / 5 := by
      rw [abs_le] at n2 d2 ⊢
      constructor <;> linarith [n2.1, n2.2, d2.1, d2.2]
    have := mul_le_mul b1 b2 (abs_nonneg _) (by positivity)
    nlinarith
  obtain ⟨b1, b2⟩ := barrier_of_products H.count hhi hprod'
  have b3 : barrierOf N p w'.var.s w'.var.nu ≤ w'.eps := b2.trans (max_le hlo (by linarith))
  refine ⟨he, hres, hprod', hnear', ⟨hpos', ⟨r / 15, by positivity, ?_, hnear'⟩, fun i hi j => ?_, ?_, b3.trans hgp⟩, b2⟩
  · rw [div_pow, hr2]
    linarith
  · have := (abs_le.1 (hprod' i hi j)).2
    linarith
  · exact (mul_le_mul_of_nonneg_left b3 (by positivity)).trans hsm

/-- `k` iterations that all continue, starting with any iteration number. -/
inductive Iterations (L : GainSolver ℝ) (N : ℕ) (cfg : Config ℝ) (S : Stages n m p ℝ) (x0 : Vec n ℝ) :
    ℕ → Solver n m p ℝ → Solver n m p ℝ → Prop
  | zero (w) : Iterations L N cfg S x0 0 w w
  | step {k : ℕ} {w w1 w2 : Solver n m p ℝ} {iter : ℕ} (h : Iterations L N cfg S x0 k w w1)
      (hp : procOnce L N cfg S x0 iter w1 = .ok (w2, .iterationContinued)) : Iterations L N cfg S x0 (k + 1) w w2

/-- The bound of the barrier parameter after `k` iterations. -/
noncomputable def rate (e : ℝ) (k : ℕ) : ℝ := max (1 / 10 ^ 8) ((17 / 32) ^ k * e)

theorem rate_step {e e' : ℝ} {k : ℕ} (h : e ≤ rate e' k) :
    max (1 / 10 ^ 8) (17 / 32 * e) ≤ rate e' (k + 1) := by
  unfold rate at *
  refine max_le (le_max_left _ _) ?_
  rcases le_max_iff.1 h with h | h
  · exact le_max_of_le_left (by linarith)
  · exact le_max_of_le_right (by rw [pow_succ]; linarith)

/-- **C121**, rate: after `k + 1` iterations from a point of the basin, with barrier parameter `e` at the start, the point has
no primal and no stationarity residual, every complementarity product is at most `17/16 max(1e-8, (17/32)^k e)` and at
least `15/16 1e-8`, and slacks and multipliers are within `√max(1e-8, (17/32)^k e) / 15` of the solution. -/
theorem C121_rate (H : LocalSetup L N cfg S x0 D C E c z K σ) {k : ℕ} {w w' : Solver n m p ℝ}
    (hb : InBasin N z w.var K σ) (h : Iterations L N cfg S x0 (k + 1) w w') :
    InBasin N z w'.var K σ ∧ NoResidual x0 N S D C E w'.var ∧
      (∀ i < N, ∀ j, w'.var.s i j * w'.var.nu i j ≤ 17 / 16 * rate (barrierOf N p w.var.s w.var.nu) k ∧
        15 / 16 * (1 / 10 ^ 8) ≤ w'.var.s i j * w'.var.nu i j) ∧
      Near N w'.var z (Real.sqrt (rate (barrierOf N p w.var.s w.var.nu) k) / 15) := by
  set e0 := barrierOf N p w.var.s w.var.nu with he0
  have key : ∀ k w', Iterations L N cfg S x0 k w w' →
      InBasin N z w'.var K σ ∧ barrierOf N p w'.var.s w'.var.nu ≤ rate e0 k := by
    intro k
    induction k with
    | zero =>
      intro w' h
      cases h
      exact ⟨hb, by unfold rate; simp [← he0]⟩
    | succ k ih =>
      intro w' h
      cases h with
      | step h1 hp =>
        obtain ⟨i1, i2⟩ := ih _ h1
        obtain ⟨s1, -, -, -, s5, s6⟩ := C121_step H i1 hp
        rw [s1] at s6
        exact ⟨s5, s6.trans (rate_step i2)⟩
  cases h with
  | step h1 hp =>
    obtain ⟨i1, i2⟩ := key _ _ h1
    obtain ⟨s1, s2, s3, s4, s5, -⟩ := C121_step H i1 hp
    have hlo : 1 / 10 ^ 8 ≤ w'.eps := by rw [s1]; exact le_max_left _ _
    rw [← s1] at i2
    refine ⟨s5, s2, fun i hi j => ?_, fun i hi j => ?_⟩
    · have := abs_le.1 (s3 i hi j)
      constructor <;> linarith [this.1, this.2]
    · have hle : Real.sqrt w'.eps / 15 ≤ Real.sqrt (rate e0 k) / 15 := by
        have := Real.sqrt_le_sqrt i2
        linarith
      exact ⟨(s4 i hi j).1.trans hle, (s4 i hi j).2.trans hle⟩

/-- The KKT error from bounds on the complementarity products. -/
theorem kkt_le_of_products (H : LocalSetup L N cfg S x0 D C E c z K σ) {w : Solver n m p ℝ} (hw : w.var.Pos N)
    (h : NoResidual x0 N S D C E w.var) {lo hi : ℝ} (hlo : 0 ≤ lo)
    (hp : ∀ i < N, ∀ j, w.var.s i j * w.var.nu i j ≤ hi ∧ lo ≤ w.var.s i j * w.var.nu i j) (e : ℝ) :
    kktOf N x0 (prepared N S w e) ≤ Real.sqrt (∑ i ∈ range N, p i : ℕ) * hi ∧
      Real.sqrt (∑ i ∈ range N, p i : ℕ) * lo ≤ kktOf N x0 (prepared N S w e) := by
  rw [kkt_noResidual H.qp hw h]
  have hcard : ∀ b : ℝ, ∑ i ∈ range N, ∑ _j : Fin (p i), b ^ 2 = ((∑ i ∈ range N, p i : ℕ) : ℝ) * b ^ 2 := by
    intro b
    simp [← sum_mul]
  have hi0 : 0 ≤ hi := hlo.trans ((hp 0 H.steps ⟨0, H.ineqs 0 H.steps⟩).2.trans (hp 0 H.steps ⟨0, H.ineqs 0 H.steps⟩).1)
  have e1 : ∀ b : ℝ, 0 ≤ b → Real.sqrt (∑ i ∈ range N, p i : ℕ) * b =
      Real.sqrt (∑ i ∈ range N, ∑ _j : Fin (p i), b ^ 2) := by
    intro b hb
    rw [hcard, Real.sqrt_mul (by positivity), Real.sqrt_sq hb]
  rw [e1 _ hi0, e1 _ hlo]
  refine ⟨Real.sqrt_le_sqrt (sum_le_sum fun i hi' => sum_le_sum fun j _ => ?_),
    Real.sqrt_le_sqrt (sum_le_sum fun i hi' => sum_le_sum fun j _ => ?_)⟩
  · have h1 := hp i (mem_range.1 hi') j
    exact pow_le_pow_left₀ (hlo.trans h1.2) h1.1 2
  · exact pow_le_pow_left₀ hlo (hp i (mem_range.1 hi') j).2 2

/-- No iteration of such a problem is undefined; it succeeds or continues. -/
theorem local_defined (H : LocalSetup L N cfg S x0 D C E c z K σ) (iter : ℕ) {w : Solver n m p ℝ} (hw : w.var.Pos N) :
    ∃ w', procOnce L N cfg S x0 iter w = .ok (w', .succeeded) ∨
      procOnce L N cfg S x0 iter w = .ok (w', .iterationContinued) := by
  obtain ⟨⟨w', st⟩, h⟩ := procOnce_ok (L := L) (N := N) (cfg := cfg) (S := S) (x0 := x0) halvingLaw_real
    ⟨fun _ i hi => H.ineqs i hi, fun h => by rw [H.noLineSearch] at h; cases h⟩ iter w
  rcases C30_iteration H.gain H.dt_pos H.qp.costs hw h with rfl | ⟨rfl, -⟩
  · exact ⟨w', .inl h⟩
  · exact ⟨w', .inr h⟩

theorem Iterations.pos (H : LocalSetup L N cfg S x0 D C E c z K σ) {k : ℕ} {w w' : Solver n m p ℝ}
    (hb : InBasin N z w.var K σ) (h : Iterations L N cfg S x0 k w w') : InBasin N z w'.var K σ := by
  cases k with
  | zero => cases h; exact hb
  | succ k => exact (C121_rate H hb h).1

theorem local_loop (H : LocalSetup L N cfg S x0 D C E c z K σ) {w : Solver n m p ℝ} (hb : InBasin N z w.var K σ) {k : ℕ}
    (hk : Real.sqrt (∑ i ∈ range N, p i : ℕ) * (17 / 16 * rate (barrierOf N p w.var.s w.var.nu) k) ≤ cfg.kktErrorThre) :
    ∀ (l j : ℕ) (w1 : Solver n m p ℝ) (r iter : ℕ) (st : Status), j + l = k → Iterations L N cfg S x0 (j + 1) w w1 →
      l + 1 ≤ r → ∃ w', optLoop L N cfg S x0 r iter st w1 = .ok (w', .succeeded) ∧
        w'.trace.length ≤ w1.trace.length + (l + 1) ∧ w'.trace ≠ [] ∧
        ∃ j' w2, j' ≤ k ∧ Iterations L N cfg S x0 (j' + 1) w w2 ∧ w'.var = w2.var := by
  intro l
  induction l with
  | zero =>
    intro j w1 r iter st hj hI hr
    obtain rfl : j = k := by omega
    obtain ⟨r, rfl⟩ : ∃ r', r = r' + 1 := ⟨r - 1, by omega⟩
    obtain ⟨c1, c2, c3, c4⟩ := C121_rate H hb hI
    obtain ⟨w', h | h⟩ := local_defined H iter c1.pos
    · obtain ⟨e, -, -, t, v, -⟩ := procOnce_frame h
      refine ⟨w', by rw [optLoop, h]; simp, by rw [t]; simp, by rw [t]; simp, j, w1, le_rfl, hI, v (by simp)⟩
    · obtain ⟨e, -, -, t, v, q, -⟩ := procOnce_frame h
      have := (kkt_le_of_products H c1.pos c2 (by norm_num) c3 e).1
      have h2 := q.2 (by rw [leb_real]; exact this.trans hk)
      cases h2
  | succ l ih =>
    intro j w1 r iter st hj hI hr
    obtain ⟨r, rfl⟩ : ∃ r', r = r' + 1 := ⟨r - 1, by omega⟩
    have c1 := (C121_rate H hb hI).1
    obtain ⟨w', h | h⟩ := local_defined H iter c1.pos
    · obtain ⟨e, -, -, t, v, -⟩ := procOnce_frame h
      refine ⟨w', by rw [optLoop, h]; simp, by rw [t]; simp, by rw [t]; simp, j, w1, by omega, hI, v (by simp)⟩
    · obtain ⟨e, -, -, t, -⟩ := procOnce_frame h
      obtain ⟨w2, o1, o2, o3⟩ := ih (j + 1) w' r (iter + 1) .iterationContinued (by omega) (hI.step h) (by omega)
      refine ⟨w2, by rw [optLoop, h]; simpa using o1, ?_, o3⟩
      rw [t] at o2
      simp only [List.length_append, List.length_cons, List.length_nil] at o2
      omega

/-- **C121**, success: if the threshold is at least `17/16 √M max(1e-8, (17/32)^k e)`, with `M` inequalities in total and
barrier parameter `e` at the start, the loop with at least `k + 2` iterations succeeds after at most `k + 2` tests, and the
returned point is the given one or one of the iterates described by `C121_rate`. -/
theorem C121_success (H : LocalSetup L N cfg S x0 D C E c z K σ) {w : Solver n m p ℝ} (hb : InBasin N z w.var K σ) {k : ℕ}
    (hk : Real.sqrt (∑ i ∈ range N, p i : ℕ) * (17 / 16 * rate (barrierOf N p w.var.s w.var.nu) k) ≤ cfg.kktErrorThre)
    {r : ℕ} (hr : k + 2 ≤ r) (iter : ℕ) (st : Status) :
    ∃ w', optLoop L N cfg S x0 r iter st w = .ok (w', .succeeded) ∧ w'.trace.length ≤ w.trace.length + (k + 2) ∧ w'.trace ≠ [] ∧
      (w'.var = w.var ∨ ∃ j w2, j ≤ k ∧ Iterations L N cfg S x0 (j + 1) w w2 ∧ w'.var = w2.var) := by
  obtain ⟨r, rfl⟩ : ∃ r', r = r' + 1 := ⟨r - 1, by omega⟩
  obtain ⟨w', h | h⟩ := local_defined H iter hb.pos
  · obtain ⟨e, -, -, t, v, -⟩ := procOnce_frame h
    exact ⟨w', by rw [optLoop, h]; simp, by rw [t]; simp, by rw [t]; simp, .inl (v (by simp))⟩
  · obtain ⟨e, -, -, t, -⟩ := procOnce_frame h
    obtain ⟨w2, o1, o2, o4, o3⟩ := local_loop H hb hk k 0 w' r (iter + 1) .iterationContinued (by omega) ((Iterations.zero w).step h)
      (by omega)
    refine ⟨w2, by rw [optLoop, h]; simpa using o1, ?_, o4, .inr o3⟩
    rw [t] at o2
    simp only [List.length_append, List.length_cons, List.length_nil] at o2
    omega

/-- **C121**, floor: because the barrier parameter is not reduced below 1e-8, a threshold below `15/16 √M 1e-8` is not met
after any number of iterations. -/
theorem C121_floor (H : LocalSetup L N cfg S x0 D C E c z K σ) {w w1 : Solver n m p ℝ} (hb : InBasin N z w.var K σ)
    (hth : cfg.kktErrorThre < Real.sqrt (∑ i ∈ range N, p i : ℕ) * (15 / 16 * (1 / 10 ^ 8))) {k : ℕ}
    (h : Iterations L N cfg S x0 (k + 1) w w1) (iter : ℕ) :
    ∃ w2, procOnce L N cfg S x0 iter w1 = .ok (w2, .iterationContinued) := by
  obtain ⟨c1, c2, c3, -⟩ := C121_rate H hb h
  obtain ⟨w', h | h⟩ := local_defined H iter c1.pos
  · exfalso
    obtain ⟨e, -, -, -, -, q, -⟩ := procOnce_frame h
    have h1 := (kkt_le_of_products H c1.pos c2 (by norm_num) c3 e).2
    have h2 := q.1 rfl
    rw [leb_real] at h2
    linarith
  · exact ⟨w', h⟩

theorem floor_loop (H : LocalSetup L N cfg S x0 D C E c z K σ) {w : Solver n m p ℝ} (hb : InBasin N z w.var K σ)
    (hth : cfg.kktErrorThre < Real.sqrt (∑ i ∈ range N, p i : ℕ) * (15 / 16 * (1 / 10 ^ 8))) :
    ∀ (r j : ℕ) (w1 : Solver n m p ℝ) (iter : ℕ), Iterations L N cfg S x0 (j + 1) w w1 →
      ∃ w', optLoop L N cfg S x0 r iter .iterationContinued w1 = .ok (w', .iterationContinued) ∧
        w'.trace.length = w1.trace.length + r := by
  intro r
  induction r with
  | zero => intro j w1 iter _; exact ⟨w1, rfl, rfl⟩
  | succ r ih =>
    intro j w1 iter hI
    obtain ⟨w2, h2⟩ := C121_floor H hb hth hI iter
    obtain ⟨w', o1, o2⟩ := ih (j + 1) w2 (iter + 1) (hI.step h2)
    obtain ⟨e, -, -, t, -⟩ := procOnce_frame h2
    refine ⟨w', by rw [optLoop, h2]; simpa using o1, ?_⟩
    rw [o2, t]
    simp only [List.length_append, List.length_cons, List.length_nil]
    omega

/-- **C121**, existence of the basin: at a solution of the quadratic program that is strictly complementary and whose slacks
and multipliers are unique, constants `K` and `σ` with the required properties exist. -/
theorem C121_constants (hS : IsQP N S D C E c) {z : Var n m p ℝ} (hz : KktPoint x0 N S D C E z)
    (hsc : ∀ i < N, ∀ j, 0 < z.s i j ∨ 0 < z.nu i j)
    (huniq : ∀ z', KktPoint x0 N S D C E z' → ∀ i < N, ∀ j, z'.s i j = z.s i j ∧ z'.nu i j = z.nu i j) :
    ∃ K σ : ℝ, 0 < K ∧ 0 < σ ∧ ErrorBound N S.dt D C E z K ∧ ∀ i < N, ∀ j, σ ≤ z.s i j ∨ σ ≤ z.nu i j := by
  obtain ⟨K, hK, hK'⟩ := exists_errorBound hS hz hsc huniq
  obtain ⟨σ, hσ, hσ'⟩ := exists_gap hsc
  exact ⟨K, σ, hK, hσ, hK', hσ'⟩

end Props

section Solve
variable {n : ℕ} {md pd : ℝ → ℕ} {L : GainSolver ℝ} {P : Callbacks n md pd} {dt : ℝ} {cfg : Config ℝ} {o : Obj n ℝ} {t0 : ℝ}
  {sc : Scratch n (fun i => md (timeAt t0 dt i)) (fun i => pd (timeAt t0 dt i)) ℝ} {x0 : Vec n ℝ} {init : VarL n ℝ}
  {D : LQData n (fun i => md (timeAt t0 dt i))} {C : (i : ℕ) → Mat (pd (timeAt t0 dt i)) n ℝ}
  {E : (i : ℕ) → Mat (pd (timeAt t0 dt i)) (md (timeAt t0 dt i)) ℝ} {c : (i : ℕ) → Vec (pd (timeAt t0 dt i)) ℝ}
  {z : Var n (fun i => md (timeAt t0 dt i)) (fun i => pd (timeAt t0 dt i)) ℝ} {K σ : ℝ}

/-- **C121** for `solve`, started from a valid variable in the basin with barrier parameter `e` (without initialisation of the
complementary variables): it returns `Succeeded` within `k + 2` iterations as soon as the threshold is at least
`17/16 √M max(1e-8, (17/32)^k e)`. -/
theorem C121_solve (H : LocalSetup L cfg.horizon.toNat cfg (stagesOf P t0 dt cfg.horizon.toNat) x0 D C E c z K σ)
    (hI : cfg.initComplementary = false) (hl : LengthsOk cfg.horizon init) (hd : DimsOk md pd t0 dt init) (hn : NonNeg init)
    (hb : InBasin cfg.horizon.toNat z init.toVar K σ) {k : ℕ} (hm : (k : ℤ) + 2 ≤ cfg.maxIter)
    (hk : Real.sqrt (∑ i ∈ range cfg.horizon.toNat, pd (timeAt t0 dt i) : ℕ) * (17 / 16 *
      rate (barrierOf cfg.horizon.toNat (fun i => pd (timeAt t0 dt i))
        (init.toVar : Var n (fun i => md (timeAt t0 dt i)) (fun i => pd (timeAt t0 dt i)) ℝ).s
        (init.toVar : Var n (fun i => md (timeAt t0 dt i)) (fun i => pd (timeAt t0 dt i)) ℝ).nu) k) ≤ cfg.kktErrorThre) :
    ∃ o', solve L P dt cfg o t0 sc x0 init = (o', .ok .succeeded) ∧ o'.trace.length ≤ k + 2 := by
  have hN : cfg.horizon.toNat = init.us.length := by have := hl.2.1; omega
  rw [hN] at H hb hk
  have hc : checkVariable md pd t0 dt cfg.horizon init = .ok () := (checkVariable_iff init).2.2.2 ⟨hl, hd, hn⟩
  set w0 := initSolver (m := fun i => md (timeAt t0 dt i)) (p := fun i => pd (timeAt t0 dt i)) init o.eps sc with hw0
  obtain ⟨w', o1, o2, hne, -⟩ := C121_success (w := w0) H hb hk (r := cfg.maxIter.toNat) (by omega) 1 .uninitialized
  refine ⟨{ var := w'.var.out init.us.length, trace := w'.trace, eps := w'.eps }, ?_, by simpa [hw0, initSolver] using o2⟩
  unfold solve runSolver
  simp only [hI, Bool.false_eq_true, if_false, hc, ← hw0, o1, Res.bind_ok, hne, and_false]
  rfl

/-- **C121** for `solve`, floor: with a threshold below `15/16 √M 1e-8`, `solve` started in the basin either accepts the given
variable at the first test or uses up all iterations and returns `MaxIterationReached`. -/
theorem C121_solve_floor (H : LocalSetup L cfg.horizon.toNat cfg (stagesOf P t0 dt cfg.horizon.toNat) x0 D C E c z K σ)
    (hI : cfg.initComplementary = false) (hl : LengthsOk cfg.horizon init) (hd : DimsOk md pd t0 dt init) (hn : NonNeg init)
    (hb : InBasin cfg.horizon.toNat z init.toVar K σ) (hm : 0 < cfg.maxIter)
    (hth : cfg.kktErrorThre < Real.sqrt (∑ i ∈ range cfg.horizon.toNat, pd (timeAt t0 dt i) : ℕ) * (15 / 16 * (1 / 10 ^ 8))) :
    ∃ o' st, solve L P dt cfg o t0 sc x0 init = (o', .ok st) ∧ ((st = .succeeded ∧ o'.trace.length = 1) ∨
      (st = .maxIterationReached ∧ (o'.trace.length : ℤ) = cfg.maxIter)) := by
  have hN : cfg.horizon.toNat = init.us.length := by have := hl.2.1; omega
  rw [hN] at H hb hth
  have hc : checkVariable md pd t0 dt cfg.horizon init = .ok () := (checkVariable_iff init).2.2.2 ⟨hl, hd, hn⟩
  set w0 := initSolver (m := fun i => md (timeAt t0 dt i)) (p := fun i => pd (timeAt t0 dt i)) init o.eps sc with hw0
  obtain ⟨r, hr⟩ : ∃ r, cfg.maxIter.toNat = r + 1 := ⟨cfg.maxIter.toNat - 1, by omega⟩
  obtain ⟨w1, h | h⟩ := local_defined (w := w0) H 1 hb.pos
  · obtain ⟨e, -, -, t, -⟩ := procOnce_frame h
    have hlen : w1.trace.length = 1 := by rw [t]; rfl
    have hne : w1.trace ≠ [] := by intro h0; rw [h0] at hlen; cases hlen
    have o1 : optLoop L init.us.length cfg (stagesOf P t0 dt init.us.length) x0 cfg.maxIter.toNat 1 .uninitialized w0 =
        .ok (w1, .succeeded) := by rw [hr, optLoop, h]; simp
    refine ⟨{ var := w1.var.out init.us.length, trace := w1.trace, eps := w1.eps }, .succeeded, ?_, .inl ⟨rfl, hlen⟩⟩
    unfold solve runSolver
    simp only [hI, Bool.false_eq_true, if_false, hc, ← hw0, o1, Res.bind_ok, hne, and_false]
    rfl
  · obtain ⟨e, -, -, t, -⟩ := procOnce_frame h
    have hlen : w1.trace.length = 1 := by rw [t]; rfl
    obtain ⟨w', f1, f2⟩ := floor_loop (w := w0) H hb hth r 0 w1 2 ((Iterations.zero w0).step h)
    have hne : w'.trace ≠ [] := by intro h0; rw [h0, hlen] at f2; simp at f2; omega
    have o1 : optLoop L init.us.length cfg (stagesOf P t0 dt init.us.length) x0 cfg.maxIter.toNat 1 .uninitialized w0 =
        .ok (w', .iterationContinued) := by rw [hr, optLoop, h]; simpa using f1
    refine ⟨{ var := w'.var.out init.us.length, trace := w'.trace, eps := w'.eps }, .maxIterationReached, ?_,
      .inr ⟨rfl, by rw [f2, hlen]; push_cast; omega⟩⟩
    unfold solve runSolver
    simp only [hI, Bool.false_eq_true, if_false, hc, ← hw0, o1, Res.bind_ok, hne, and_false]
    rfl

end Solve
end Nmpc.FMPC
