import Verif.FMPC.ResidualProps
import Verif.FMPC.Init
import Mathlib.Analysis.Normed.Module.FiniteDimension

/-!
# FMPC: the interior-point iteration near a strictly complementary solution (helper lemmas for C121)
-/

set_option linter.unusedSectionVars false

namespace Nmpc.FMPC

open DDP (FDeriv LDeriv VDeriv timeAt)
open Matrix Finset

section Local
variable {n : ℕ} {m p : ℕ → ℕ} {L : GainSolver ℝ} {N : ℕ} {cfg : Config ℝ} {S : Stages n m p ℝ} {x0 : Vec n ℝ}
variable {D : LQData n m} {C : (i : ℕ) → Mat (p i) n ℝ} {E : (i : ℕ) → Mat (p i) (m i) ℝ} {c : (i : ℕ) → Vec (p i) ℝ}

/-- A solution of the homogeneous linear part of the optimality conditions: difference of two points without residuals. -/
structure Homog (N : ℕ) (dt : ℝ) (D : LQData n m) (C : (i : ℕ) → Mat (p i) n ℝ) (E : (i : ℕ) → Mat (p i) (m i) ℝ)
    (e : Var n m p ℝ) : Prop where
  init : e.x 0 = 0
  dyn : ∀ i < N, D.A i *ᵥ e.x i + D.B i *ᵥ e.u i = e.x (i + 1)
  ineq : ∀ i < N, C i *ᵥ e.x i + E i *ᵥ e.u i + e.s i = 0
  statx : ∀ i < N, dt • (D.Q i *ᵥ e.x i + D.M i *ᵥ e.u i) - e.lam i + (D.A i)ᵀ *ᵥ e.lam (i + 1) + (C i)ᵀ *ᵥ e.nu i = 0
  statu : ∀ i < N, dt • ((D.M i)ᵀ *ᵥ e.x i + D.R i *ᵥ e.u i) + (D.B i)ᵀ *ᵥ e.lam (i + 1) + (E i)ᵀ *ᵥ e.nu i = 0
  term : D.Qf *ᵥ e.x N = e.lam N

/-- `a + t b`. -/
def Var.addSmul (a : Var n m p ℝ) (t : ℝ) (b : Var n m p ℝ) : Var n m p ℝ where
  x i := a.x i + t • b.x i
  u i := a.u i + t • b.u i
  lam i := a.lam i + t • b.lam i
  s i := a.s i + t • b.s i
  nu i := a.nu i + t • b.nu i

/-- Linear combinations of homogeneous solutions. -/
theorem Homog.addSmul {dt : ℝ} {a b : Var n m p ℝ} (ha : Homog N dt D C E a) (hb : Homog N dt D C E b) (t : ℝ) :
    Homog N dt D C E (a.addSmul t b) := by
  refine ⟨?_, fun i hi => ?_, fun i hi => ?_, fun i hi => ?_, fun i hi => ?_, ?_⟩
  · simp [Var.addSmul, ha.init, hb.init]
  · simp only [Var.addSmul, mv_step, ← ha.dyn i hi, ← hb.dyn i hi]
    module
  · simp only [Var.addSmul, mv_step]
    refine Eq.trans ?_ ((congrArg₂ (fun y z => y + t • z) (ha.ineq i hi) (hb.ineq i hi)).trans (by simp))
    module
  · simp only [Var.addSmul, mv_step]
    refine Eq.trans ?_ ((congrArg₂ (fun y z => y + t • z) (ha.statx i hi) (hb.statx i hi)).trans (by simp))
    module
  · simp only [Var.addSmul, mv_step]
    refine Eq.trans ?_ ((congrArg₂ (fun y z => y + t • z) (ha.statu i hi) (hb.statu i hi)).trans (by simp))
    module
  · simp only [Var.addSmul, mv_step, ← ha.term, ← hb.term]

/-- The difference of two points without residuals is homogeneous. -/
theorem NoResidual.sub (hS : IsQP N S D C E c) {a b : Var n m p ℝ} (ha : NoResidual x0 N S D C E a)
    (hb : NoResidual x0 N S D C E b) : Homog N S.dt D C E (a.addSmul (-1) b) := by
  refine ⟨?_, fun i hi => ?_, fun i hi => ?_, fun i hi => ?_, fun i hi => ?_, ?_⟩
  · have h1 := ha.init
    have h2 := hb.init
    unfold initRes at h1 h2
    have h3 : a.x 0 = b.x 0 := by rw [← sub_eq_zero.1 h1, ← sub_eq_zero.1 h2]
    simp [Var.addSmul, h3]
  · have h1 := ha.dyn i hi
    have h2 := hb.dyn i hi
    unfold dynRes at h1 h2
    rw [hS.constraints.f] at h1 h2
    simp only [Var.addSmul, mv_step]
    rw [← sub_eq_zero]
    calc _ = (D.A i *ᵥ a.x i + D.B i *ᵥ a.u i + D.a i - a.x (i + 1)) - (D.A i *ᵥ b.x i + D.B i *ᵥ b.u i + D.a i - b.x (i + 1)) := by
          module
      _ = 0 := by rw [h1, h2, sub_zero]
  · have h1 := ha.ineq i hi
    have h2 := hb.ineq i hi
    unfold ineqRes at h1 h2
    rw [hS.constraints.g] at h1 h2
    simp only [Var.addSmul, mv_step]
    calc _ = (C i *ᵥ a.x i + E i *ᵥ a.u i + c i + a.s i) - (C i *ᵥ b.x i + E i *ᵥ b.u i + c i + b.s i) := by
          module
      _ = 0 := by rw [h1, h2, sub_zero]
  · have h1 := ha.statx i hi
    have h2 := hb.statx i hi
    unfold statxRes at h1 h2
    simp only [Var.addSmul, mv_step]
    refine Eq.trans ?_ ((congrArg₂ (· - ·) h1 h2).trans (sub_zero 0))
    module
  · have h1 := ha.statu i hi
    have h2 := hb.statu i hi
    unfold statuRes at h1 h2
    simp only [Var.addSmul, mv_step]
    refine Eq.trans ?_ ((congrArg₂ (· - ·) h1 h2).trans (sub_zero 0))
    module
  · have h1 := ha.term
    have h2 := hb.term
    unfold termRes at h1 h2
    simp only [Var.addSmul, mv_step]
    rw [← sub_eq_zero]
    refine Eq.trans ?_ ((congrArg₂ (· - ·) h1 h2).trans (sub_zero 0))
    module

/-- Adding a homogeneous solution keeps a point without residuals. -/
theorem NoResidual.add (hS : IsQP N S D C E c) {a e : Var n m p ℝ} (ha : NoResidual x0 N S D C E a)
    (he : Homog N S.dt D C E e) (t : ℝ) : NoResidual x0 N S D C E (a.addSmul t e) := by
  refine ⟨?_, fun i hi => ?_, fun i hi => ?_, fun i hi => ?_, fun i hi => ?_, ?_⟩
  · have h1 := ha.init
    unfold initRes at h1 ⊢
    simpa [Var.addSmul, he.init] using h1
  · have h1 := ha.dyn i hi
    unfold dynRes at h1 ⊢
    rw [hS.constraints.f] at h1 ⊢
    simp only [Var.addSmul, mv_step, ← he.dyn i hi]
    refine Eq.trans ?_ h1
    module
  · have h1 := ha.ineq i hi
    have h2 := he.ineq i hi
    unfold ineqRes at h1 ⊢
    rw [hS.constraints.g] at h1 ⊢
    simp only [Var.addSmul, mv_step]
    refine Eq.trans ?_ ((congrArg₂ (fun y z => y + t • z) h1 h2).trans (by simp))
    module
  · have h1 := ha.statx i hi
    have h2 := he.statx i hi
    unfold statxRes at h1 ⊢
    simp only [Var.addSmul, mv_step]
    refine Eq.trans ?_ ((congrArg₂ (fun y z => y + t • z) h1 h2).trans (by simp))
    module
  · have h1 := ha.statu i hi
    have h2 := he.statu i hi
    unfold statuRes at h1 ⊢
    simp only [Var.addSmul, mv_step]
    refine Eq.trans ?_ ((congrArg₂ (fun y z => y + t • z) h1 h2).trans (by simp))
    module
  · have h1 := ha.term
    unfold termRes at h1 ⊢
    simp only [Var.addSmul, mv_step, ← he.term]
    refine Eq.trans ?_ h1
    module

/-- The full Newton step from any point has no residuals. -/
theorem newton_full (hS : IsQP N S D C E c) {eps : ℝ} {w : Solver n m p ℝ} {d : Var n m p ℝ}
    (hn : NewtonSystem N S.dt eps x0 w.var (fun i => if i < N then calcCoeff S w.var i (w.coeff i) else w.coeff i)
      (calcTerm N S w.var w.term) d) : NoResidual x0 N S D C E (w.var.addSmul 1 d) := by
  have hA : ∀ i, (calcCoeff S w.var i (w.coeff i)).F.Fx = D.A i := fun i => hS.constraints.dfx _ _ _ _
  have hB : ∀ i, (calcCoeff S w.var i (w.coeff i)).F.Fu = D.B i := fun i => hS.constraints.dfu _ _ _ _
  have hC : ∀ i, (calcCoeff S w.var i (w.coeff i)).G.C = C i := fun i => hS.constraints.dgx _ _ _ _
  have hE : ∀ i, (calcCoeff S w.var i (w.coeff i)).G.D = E i := fun i => hS.constraints.dgu _ _ _ _
  have hl : ∀ i, (calcCoeff S w.var i (w.coeff i)).L = ⟨D.Q i *ᵥ w.var.x i + D.M i *ᵥ w.var.u i + D.q i,
        (D.M i)ᵀ *ᵥ w.var.x i + D.R i *ᵥ w.var.u i + D.r i, D.Q i, D.R i, D.M i⟩ := fun i => hS.dl _ _ _ _
  refine ⟨?_, fun i hi => ?_, fun i hi => ?_, fun i hi => ?_, fun i hi => ?_, ?_⟩
  · unfold initRes
    simp [Var.addSmul, hn.init]
  · have e := hn.dyn i hi
    rw [if_pos hi, hA, hB] at e
    have e' : D.A i *ᵥ d.x i + D.B i *ᵥ d.u i - d.x (i + 1) = - dynRes S w.var i := e
    have : dynRes S (w.var.addSmul 1 d) i = dynRes S w.var i + (D.A i *ᵥ d.x i + D.B i *ᵥ d.u i - d.x (i + 1)) := by
      unfold dynRes
      simp only [Var.addSmul]
      rw [hS.constraints.f, hS.constraints.f, mv_step, mv_step]
      module
    rw [this, e', add_neg_cancel]
  · have e := hn.ineq i hi
    rw [if_pos hi, hC, hE] at e
    have e' : C i *ᵥ d.x i + E i *ᵥ d.u i + d.s i = - ineqRes S w.var i := e
    have : ineqRes S (w.var.addSmul 1 d) i = ineqRes S w.var i + (C i *ᵥ d.x i + E i *ᵥ d.u i + d.s i) := by
      unfold ineqRes
      simp only [Var.addSmul]
      rw [hS.constraints.g, hS.constraints.g, mv_step, mv_step]
      module
    rw [this, e', add_neg_cancel]
  · have e := hn.statx i hi
    rw [if_pos hi, hA, hC, hl] at e
    have hb : (calcCoeff S w.var i (w.coeff i)).Lxbar = statxRes S.dt D C w.var i := by
      have : (calcCoeff S w.var i (w.coeff i)).Lxbar = smulv (-1) (w.var.lam i) +
        smulv S.dt (calcCoeff S w.var i (w.coeff i)).L.Lx +
        FOps.mulVec (calcCoeff S w.var i (w.coeff i)).F.Fxᵀ (w.var.lam (i + 1)) +
        FOps.mulVec (calcCoeff S w.var i (w.coeff i)).G.Cᵀ (w.var.nu i) := rfl
      rw [this, hA, hC, hl]
      simp only [mulVec_real, smulv_real, statxRes]
      module
    rw [hb] at e
    dsimp only at e
    have : statxRes S.dt D C (w.var.addSmul 1 d) i = statxRes S.dt D C w.var i +
        (S.dt • (D.Q i *ᵥ d.x i + D.M i *ᵥ d.u i) - d.lam i + (D.A i)ᵀ *ᵥ d.lam (i + 1) + (C i)ᵀ *ᵥ d.nu i) := by
      unfold statxRes
      simp only [Var.addSmul, mv_step]
      module
    rw [this, e, add_neg_cancel]
  · have e := hn.statu i hi
    rw [if_pos hi, hB, hE, hl] at e
    have hb : (calcCoeff S w.var i (w.coeff i)).Lubar = statuRes S.dt D E w.var i := by
      have : (calcCoeff S w.var i (w.coeff i)).Lubar =
        smulv S.dt (calcCoeff S w.var i (w.coeff i)).L.Lu +
        FOps.mulVec (calcCoeff S w.var i (w.coeff i)).F.Fuᵀ (w.var.lam (i + 1)) +
        FOps.mulVec (calcCoeff S w.var i (w.coeff i)).G.Dᵀ (w.var.nu i) := rfl
      rw [this, hB, hE, hl]
      simp only [mulVec_real, smulv_real, statuRes]
    rw [hb] at e
    dsimp only at e
    have : statuRes S.dt D E (w.var.addSmul 1 d) i = statuRes S.dt D E w.var i +
        (S.dt • ((D.M i)ᵀ *ᵥ d.x i + D.R i *ᵥ d.u i) + (D.B i)ᵀ *ᵥ d.lam (i + 1) + (E i)ᵀ *ᵥ d.nu i) := by
      unfold statuRes
      simp only [Var.addSmul, mv_step]
      module
    rw [this, e, add_neg_cancel]
  · have e := hn.term
    have h1 : (calcTerm N S w.var w.term).V = { Vx := D.Qf *ᵥ w.var.x N + D.qf, Vxx := D.Qf } := hS.dφ _ _
    have hb : (calcTerm N S w.var w.term).Lxbar = termRes D N w.var := by
      have : (calcTerm N S w.var w.term).Lxbar = (calcTerm N S w.var w.term).V.Vx - w.var.lam N := rfl
      rw [this, h1]
      rfl
    rw [hb, h1] at e
    dsimp only at e
    have : termRes D N (w.var.addSmul 1 d) = termRes D N w.var + (D.Qf *ᵥ d.x N - d.lam N) := by
      unfold termRes
      simp only [Var.addSmul, mv_step]
      module
    rw [this, e, add_neg_cancel]

/-- The distance of slacks and multipliers from those of `z` is at most `d`. -/
def Near (N : ℕ) (v z : Var n m p ℝ) (d : ℝ) : Prop :=
  ∀ i < N, ∀ j, |v.s i j - z.s i j| ≤ d ∧ |v.nu i j - z.nu i j| ≤ d

/-- The KKT conditions of the quadratic program at `z`. -/
structure KktPoint (x0 : Vec n ℝ) (N : ℕ) (S : Stages n m p ℝ) (D : LQData n m) (C : (i : ℕ) → Mat (p i) n ℝ)
    (E : (i : ℕ) → Mat (p i) (m i) ℝ) (z : Var n m p ℝ) : Prop where
  res : NoResidual x0 N S D C E z
  s_nonneg : ∀ i < N, ∀ j, 0 ≤ z.s i j
  nu_nonneg : ∀ i < N, ∀ j, 0 ≤ z.nu i j
  compl : ∀ i < N, ∀ j, z.s i j * z.nu i j = 0

/-- The linearised complementarity conditions at `z` bound the slack and multiplier parts of homogeneous solutions. -/
def ErrorBound (N : ℕ) (dt : ℝ) (D : LQData n m) (C : (i : ℕ) → Mat (p i) n ℝ) (E : (i : ℕ) → Mat (p i) (m i) ℝ)
    (z : Var n m p ℝ) (K : ℝ) : Prop :=
  ∀ e : Var n m p ℝ, Homog N dt D C E e → ∀ b : ℝ, 0 ≤ b →
    (∀ i < N, ∀ j, |z.s i j * e.nu i j + z.nu i j * e.s i j| ≤ b) →
    ∀ i < N, ∀ j, |e.s i j| ≤ K * b ∧ |e.nu i j| ≤ K * b

/-- The largest component of slacks and multipliers. -/
theorem exists_maxComp (e : Var n m p ℝ) (N : ℕ) : ∃ R : ℝ, 0 ≤ R ∧ (∀ i < N, ∀ j, |e.s i j| ≤ R ∧ |e.nu i j| ≤ R) ∧
    ∀ b : ℝ, 0 ≤ b → (∀ i < N, ∀ j, |e.s i j| ≤ b ∧ |e.nu i j| ≤ b) → R ≤ b := by
  classical
  set T : Finset (Σ i, Fin (p i)) := (range N).sigma fun _ => univ with hT
  by_cases hne : T.Nonempty
  · obtain ⟨k, hk, hmax⟩ := T.exists_max_image (fun k => max |e.s k.1 k.2| |e.nu k.1 k.2|) hne
    refine ⟨max |e.s k.1 k.2| |e.nu k.1 k.2|, le_max_of_le_left (abs_nonneg _), fun i hi j => ?_, fun b _ hb => ?_⟩
    · have := hmax ⟨i, j⟩ (by simp [hT, hi])
      exact ⟨(le_max_left _ _).trans this, (le_max_right _ _).trans this⟩
    · have h1 : k.1 < N := by simpa [hT] using hk
      exact max_le (hb k.1 h1 k.2).1 (hb k.1 h1 k.2).2
  · refine ⟨0, le_rfl, fun i hi j => ?_, fun b hb _ => hb⟩
    exact absurd ⟨⟨i, j⟩, by simp [hT, hi]⟩ hne

/-- Distance of the full Newton step from the solution. -/
theorem newton_near (hS : IsQP N S D C E c) {z v v' : Var n m p ℝ} (hz : KktPoint x0 N S D C E z) {K eps d r : ℝ}
    (hK : ErrorBound N S.dt D C E z K) (hK0 : 0 ≤ K) (hv' : NoResidual x0 N S D C E v') (he : 0 < eps) (hr0 : 0 ≤ r)
    (hr : r ^ 2 = eps) (hd0 : 0 ≤ d) (hKr : 16 * (K * r) ≤ 1) (hdr : 8 * d ≤ r)
    (hcompl : ∀ i < N, ∀ j, v.s i j * v'.nu i j + v.nu i j * v'.s i j = eps + v.s i j * v.nu i j)
    (hd : Near N v z d) : Near N v' z (r / 15) := by
  obtain ⟨R, hR0, hR, hRle⟩ := exists_maxComp (v'.addSmul (-1) z) N
  have hh := NoResidual.sub hS hv' hz.res
  have es : ∀ i j, (v'.addSmul (-1) z).s i j = v'.s i j - z.s i j := fun i j => by simp [Var.addSmul]; ring
  have en : ∀ i j, (v'.addSmul (-1) z).nu i j = v'.nu i j - z.nu i j := fun i j => by simp [Var.addSmul]; ring
  have hb := hK _ hh (eps + d * d + 2 * (d * R)) (by positivity) fun i hi j => by
    rw [es, en]
    have h1 := hcompl i hi j
    have h2 := hz.compl i hi j
    obtain ⟨h3, h4⟩ := hd i hi j
    obtain ⟨h5, h6⟩ := hR i hi j
    rw [es] at h5
    rw [en] at h6
    have e1 : z.s i j * (v'.nu i j - z.nu i j) + z.nu i j * (v'.s i j - z.s i j) =
        eps + (v.s i j - z.s i j) * (v.nu i j - z.nu i j) - ((v.s i j - z.s i j) * (v'.nu i j - z.nu i j)
          + (v.nu i j - z.nu i j) * (v'.s i j - z.s i j)) := by
      linear_combination h1 - h2
    rw [e1]
    have a1 : |(v.s i j - z.s i j) * (v.nu i j - z.nu i j)| ≤ d * d := by
      rw [abs_mul]; exact mul_le_mul h3 h4 (abs_nonneg _) hd0
    have a2 : |(v.s i j - z.s i j) * (v'.nu i j - z.nu i j)| ≤ d * R := by
      rw [abs_mul]; exact mul_le_mul h3 h6 (abs_nonneg _) hd0
    have a3 : |(v.nu i j - z.nu i j) * (v'.s i j - z.s i j)| ≤ d * R := by
      rw [abs_mul]; exact mul_le_mul h4 h5 (abs_nonneg _) hd0
    rw [abs_le] at a1 a2 a3 ⊢
    constructor <;> linarith [a1.1, a1.2, a2.1, a2.2, a3.1, a3.2]
  have hR' := hRle _ (by positivity) hb
  have hfin : R ≤ r / 15 := by
    have h1 : K * eps ≤ r / 16 := by rw [← hr]; nlinarith
    have h2 : K * (d * d) ≤ r / 1024 := by
      have : d * d ≤ eps / 64 := by rw [← hr]; nlinarith
      have := mul_le_mul_of_nonneg_left this hK0
      linarith
    have h3 : K * (2 * (d * R)) ≤ R / 64 := by
      have : K * d ≤ 1 / 128 := by
        have : K * (8 * d) ≤ K * r := mul_le_mul_of_nonneg_left hdr hK0
        linarith
      have := mul_le_mul_of_nonneg_right this hR0
      linarith
    rw [mul_add, mul_add] at hR'
    linarith
  intro i hi j
  obtain ⟨h5, h6⟩ := hR i hi j
  rw [es] at h5
  rw [en] at h6
  exact ⟨h5.trans hfin, h6.trans hfin⟩

/-- One slack and its multiplier, the multiplier being positive at the solution: the full Newton step keeps at least half a
percent of both. -/
theorem pair_active {s nu s' nu' b eps r d : ℝ} (hs : 0 < s) (hnu : 0 < nu) (hr0 : 0 < r) (hr : r ^ 2 = eps) (hb : r ≤ b)
    (hdr : 8 * d ≤ r) (h1 : |s - 0| ≤ d) (h2 : |nu - b| ≤ d) (h4 : |nu' - b| ≤ r / 15)
    (hc : s * nu' + nu * s' = eps + s * nu) (hp : s * nu ≤ 100 * eps) : 5 / 1000 * s ≤ s' ∧ 5 / 1000 * nu ≤ nu' := by
  rw [sub_zero] at h1
  rw [abs_le] at h1 h2 h4
  refine ⟨?_, by linarith [h1.1, h2.1, h2.2, h4.1]⟩
  have h5 : nu * s' = eps - s * (nu' - nu) := by linear_combination hc
  have h6 : s * (nu' - nu) ≤ eps / 16 := by
    have a1 : nu' - nu ≤ 23 / 120 * r := by linarith [h2.1, h4.2]
    have a2 : s * (nu' - nu) ≤ s * (23 / 120 * r) := mul_le_mul_of_nonneg_left a1 hs.le
    have a3 : s ≤ r / 8 := by linarith [h1.2]
    have a4 : s * (23 / 120 * r) ≤ r / 8 * (23 / 120 * r) := mul_le_mul_of_nonneg_right a3 (by positivity)
    have a5 : 0 < r ^ 2 := by positivity
    rw [← hr]
    nlinarith
  have h7 : 0 < eps := by rw [← hr]; positivity
  have h8 : nu * (5 / 1000 * s) ≤ nu * s' := by rw [h5]; nlinarith
  exact le_of_mul_le_mul_left h8 hnu

/-- Half of the average complementarity product is used as target; all products after the step are close to the target. -/
theorem barrier_of_products {v : Var n m p ℝ} {eps : ℝ} (hM : 0 < ∑ i ∈ range N, p i) (he' : eps ≤ 10 ^ 6) (h : ∀ i < N, ∀ j, |v.s i j * v.nu i j - eps| ≤ eps / 16) :
    15 / 32 * eps ≤ barrierOf N p v.s v.nu ∧ barrierOf N p v.s v.nu ≤ max (1 / 10 ^ 8) (17 / 32 * eps) := by
  have hM' : (0 : ℝ) < ∑ i ∈ range N, (p i : ℝ) := by exact_mod_cast hM
  have hlo : 15 / 16 * eps * ∑ i ∈ range N, (p i : ℝ) ≤ ∑ i ∈ range N, ∑ j, v.s i j * v.nu i j := by
    rw [mul_sum]
    refine sum_le_sum fun i hi => ?_
    have : ∑ _j : Fin (p i), 15 / 16 * eps = 15 / 16 * eps * p i := by simp [mul_comm]
    rw [← this]
    refine sum_le_sum fun j _ => ?_
    have := abs_le.1 (h i (mem_range.1 hi) j)
    linarith [this.1]
  have hhi : ∑ i ∈ range N, ∑ j, v.s i j * v.nu i j ≤ 17 / 16 * eps * ∑ i ∈ range N, (p i : ℝ) := by
    rw [mul_sum]
    refine sum_le_sum fun i hi => ?_
    have : ∑ _j : Fin (p i), 17 / 16 * eps = 17 / 16 * eps * p i := by simp [mul_comm]
    rw [← this]
    refine sum_le_sum fun j _ => ?_
    have := abs_le.1 (h i (mem_range.1 hi) j)
    linarith [this.2]
  unfold barrierOf
  set q := (∑ i ∈ range N, ∑ j, v.s i j * v.nu i j) / (2 * ∑ i ∈ range N, (p i : ℝ)) with hq
  have q1 : 15 / 32 * eps ≤ q := by
    rw [hq, le_div_iff₀ (by positivity)]; linarith
  have q2 : q ≤ 17 / 32 * eps := by
    rw [hq, div_le_iff₀ (by positivity)]; linarith
  exact ⟨le_max_of_le_right (le_min (by linarith) q1), max_le_max le_rfl ((min_le_right _ _).trans q2)⟩

/-- A strictly complementary solution: in each pair one of the two values is at least `σ`. -/
theorem exists_gap {z : Var n m p ℝ} (h : ∀ i < N, ∀ j, 0 < z.s i j ∨ 0 < z.nu i j) :
    ∃ σ : ℝ, 0 < σ ∧ ∀ i < N, ∀ j, σ ≤ z.s i j ∨ σ ≤ z.nu i j := by
  classical
  set T : Finset (Σ i, Fin (p i)) := (range N).sigma fun _ => univ with hT
  by_cases hne : T.Nonempty
  · obtain ⟨k, hk, hmin⟩ := T.exists_min_image (fun k => max (z.s k.1 k.2) (z.nu k.1 k.2)) hne
    refine ⟨max (z.s k.1 k.2) (z.nu k.1 k.2), ?_, fun i hi j => ?_⟩
    · have h1 : k.1 < N := by simpa [hT] using hk
      exact lt_max_iff.2 (h k.1 h1 k.2)
    · exact le_max_iff.1 (hmin ⟨i, j⟩ (by simp [hT, hi]))
  · refine ⟨1, one_pos, fun i hi j => ?_⟩
    exact absurd ⟨⟨i, j⟩, by simp [hT, hi]⟩ hne

/-- A homogeneous solution in the kernel of the linearised complementarity conditions leads to other solutions. -/
theorem kkt_direction (hS : IsQP N S D C E c) {z e : Var n m p ℝ} (hz : KktPoint x0 N S D C E z)
    (hsc : ∀ i < N, ∀ j, 0 < z.s i j ∨ 0 < z.nu i j) (he : Homog N S.dt D C E e)
    (hk : ∀ i < N, ∀ j, z.s i j * e.nu i j + z.nu i j * e.s i j = 0) :
    ∃ t : ℝ, 0 < t ∧ KktPoint x0 N S D C E (z.addSmul t e) := by
  obtain ⟨σ, hσ, hg⟩ := exists_gap hsc
  obtain ⟨R, hR0, hR, -⟩ := exists_maxComp e N
  have ht : 0 < σ / (R + 1) := by positivity
  have hb : ∀ a, |a| ≤ R → - σ ≤ σ / (R + 1) * a := by
    intro a ha
    have h1 : σ / (R + 1) * R ≤ σ := by
      rw [div_mul_eq_mul_div, div_le_iff₀ (by positivity)]
      nlinarith
    have h2 := mul_le_mul_of_nonneg_left (abs_le.1 ha).1 ht.le
    linarith
  have key : ∀ i < N, ∀ j, (σ ≤ z.s i j ∧ z.nu i j = 0 ∧ e.nu i j = 0) ∨ (σ ≤ z.nu i j ∧ z.s i j = 0 ∧ e.s i j = 0) := by
    intro i hi j
    have h1 := hz.compl i hi j
    have h2 := hk i hi j
    rcases hg i hi j with h | h
    · left
      have hp : z.s i j ≠ 0 := by linarith
      have h3 : z.nu i j = 0 := (mul_eq_zero.1 h1).resolve_left hp
      rw [h3, zero_mul, add_zero] at h2
      exact ⟨h, h3, (mul_eq_zero.1 h2).resolve_left hp⟩
    · right
      have hp : z.nu i j ≠ 0 := by linarith
      have h3 : z.s i j = 0 := (mul_eq_zero.1 h1).resolve_right hp
      rw [h3, zero_mul, zero_add] at h2
      exact ⟨h, h3, (mul_eq_zero.1 h2).resolve_left hp⟩
  refine ⟨σ / (R + 1), ht, hz.res.add hS he _, fun i hi j => ?_, fun i hi j => ?_, fun i hi j => ?_⟩
  all_goals
    simp only [Var.addSmul, Pi.add_apply, Pi.smul_apply, smul_eq_mul]
    have h1 := hb _ (hR i hi j).1
    have h2 := hb _ (hR i hi j).2
    rcases key i hi j with ⟨k1, k2, k3⟩ | ⟨k1, k2, k3⟩
    all_goals try simp only [k2, k3, mul_zero, zero_mul, add_zero, le_refl]
    all_goals try linarith

/-- One real number for each inequality. -/
abbrev CompSpace (N : ℕ) (p : ℕ → ℕ) := (i : Fin N) → Fin (p i) → ℝ

/-- At a strictly complementary solution whose slacks and multipliers are unique, the linearised complementarity conditions
bound the slacks and multipliers of homogeneous solutions. -/
theorem exists_errorBound (hS : IsQP N S D C E c) {z : Var n m p ℝ} (hz : KktPoint x0 N S D C E z)
    (hsc : ∀ i < N, ∀ j, 0 < z.s i j ∨ 0 < z.nu i j)
    (huniq : ∀ z', KktPoint x0 N S D C E z' → ∀ i < N, ∀ j, z'.s i j = z.s i j ∧ z'.nu i j = z.nu i j) :
    ∃ K : ℝ, 0 < K ∧ ErrorBound N S.dt D C E z K := by
  let W : Submodule ℝ (CompSpace N p × CompSpace N p) :=
    { carrier := {a | ∃ e : Var n m p ℝ, Homog N S.dt D C E e ∧ ∀ i : Fin N, a.1 i = e.s i ∧ a.2 i = e.nu i}
      add_mem' := by
        rintro a b ⟨e, he, ha⟩ ⟨f, hf, hb⟩
        refine ⟨e.addSmul 1 f, ?_, fun i => ?_⟩
        · exact he.addSmul hf 1
        · simp [Var.addSmul, (ha i).1, (ha i).2, (hb i).1, (hb i).2]
      zero_mem' := ⟨⟨0, 0, 0, 0, 0⟩, by constructor <;> simp, fun i => by simp⟩
      smul_mem' := by
        rintro t a ⟨e, he, ha⟩
        refine ⟨Var.addSmul ⟨0, 0, 0, 0, 0⟩ t e, ?_, fun i => ?_⟩
        · refine Homog.addSmul ?_ he t
          constructor <;> simp
        · simp [Var.addSmul, (ha i).1, (ha i).2] }
  let T : (CompSpace N p × CompSpace N p) →ₗ[ℝ] CompSpace N p :=
    { toFun := fun a i j => z.s i j * a.2 i j + z.nu i j * a.1 i j
      map_add' := fun a b => by funext i j; simp; ring
      map_smul' := fun t a => by funext i j; simp; ring }
  have hker : LinearMap.ker (T ∘ₗ W.subtype) = ⊥ := by
    rw [LinearMap.ker_eq_bot']
    rintro ⟨a, e, he, ha⟩ h0
    have hk : ∀ i < N, ∀ j, z.s i j * e.nu i j + z.nu i j * e.s i j = 0 := by
      intro i hi j
      have := congrFun (congrFun h0 ⟨i, hi⟩) j
      have h2 : z.s i j * a.2 ⟨i, hi⟩ j + z.nu i j * a.1 ⟨i, hi⟩ j = 0 := this
      rwa [(ha ⟨i, hi⟩).1, (ha ⟨i, hi⟩).2] at h2
    obtain ⟨t, ht, hz'⟩ := kkt_direction hS hz hsc he hk
    apply Subtype.ext
    refine Prod.ext (funext fun i => funext fun j => ?_) (funext fun i => funext fun j => ?_)
    · have := (huniq _ hz' i i.2 j).1
      simp only [Var.addSmul, Pi.add_apply, Pi.smul_apply, smul_eq_mul, add_eq_left, mul_eq_zero, ht.ne', false_or] at this
      rw [(ha i).1]
      exact this
    · have := (huniq _ hz' i i.2 j).2
      simp only [Var.addSmul, Pi.add_apply, Pi.smul_apply, smul_eq_mul, add_eq_left, mul_eq_zero, ht.ne', false_or] at this
      rw [(ha i).2]
      exact this
  obtain ⟨K, hK, hA⟩ := (T ∘ₗ W.subtype).exists_antilipschitzWith hker
  refine ⟨K, hK, fun e he b hb hT i hi j => ?_⟩
  let a : W := ⟨(fun i => e.s i, fun i => e.nu i), e, he, fun i => ⟨rfl, rfl⟩⟩
  have h1 : ‖a‖ ≤ K * ‖T a.1‖ := by
    have := hA.le_mul_norm_sub (x := a) (y := 0)
    simpa using this
  have h2 : ‖T a.1‖ ≤ b := (pi_norm_le_iff_of_nonneg hb).2 fun i => (pi_norm_le_iff_of_nonneg hb).2 fun j => hT i i.2 j
  have h3 : ‖a‖ ≤ K * b := h1.trans (mul_le_mul_of_nonneg_left h2 K.2)
  have h4 : ‖a‖ = max ‖a.1.1‖ ‖a.1.2‖ := rfl
  rw [h4] at h3
  exact ⟨(norm_le_pi_norm (a.1.1 ⟨i, hi⟩) j).trans ((norm_le_pi_norm a.1.1 ⟨i, hi⟩).trans ((le_max_left _ _).trans h3)),
    (norm_le_pi_norm (a.1.2 ⟨i, hi⟩) j).trans ((norm_le_pi_norm a.1.2 ⟨i, hi⟩).trans ((le_max_right _ _).trans h3))⟩

/-- The KKT error of a point without residuals is the norm of the complementarity products. -/
theorem kkt_noResidual (hS : IsQP N S D C E c) {w : Solver n m p ℝ} (hw : w.var.Pos N)
    (h : NoResidual x0 N S D C E w.var) (e : ℝ) :
    kktOf N x0 (prepared N S w e) = Real.sqrt (∑ i ∈ range N, ∑ j, (w.var.s i j * w.var.nu i j) ^ 2) := by
  unfold kktOf calcKktError
  rw [sqrt_real]
  congr 1
  have ht : (prepared N S w e).term.Lxbar = 0 := by
    have h1 : (calcTerm N S w.var w.term).V = { Vx := D.Qf *ᵥ w.var.x N + D.qf, Vxx := D.Qf } := hS.dφ _ _
    have : (prepared N S w e).term.Lxbar = (calcTerm N S w.var w.term).V.Vx - w.var.lam N := rfl
    rw [this, h1]
    exact h.term
  have h0 : (prepared N S w e).var = w.var := rfl
  have hz : ∀ k, sqNorm (0 : Vec k ℝ) = 0 := fun k => by rw [dot_self_eq]; simp
  have hi0 : x0 - w.var.x 0 = 0 := h.init
  have key : ∀ k ≤ N, forUp k (fun i e' => e' + sqNorm ((prepared N S w e).coeff i).xbar
      + sqNorm ((prepared N S w e).coeff i).gbar + sqNorm ((prepared N S w e).coeff i).Lxbar
      + sqNorm ((prepared N S w e).coeff i).Lubar
      + sqNorm (complError 0 ((prepared N S w e).var.s i) ((prepared N S w e).var.nu i)))
        (0 + sqNorm (x0 - (prepared N S w e).var.x 0)) =
      ∑ i ∈ range k, ∑ j, (w.var.s i j * w.var.nu i j) ^ 2 := by
    intro k hk
    induction k with
    | zero => simp only [forUp, range_zero, sum_empty, h0, hi0, hz, add_zero]
    | succ k ih =>
      have hk' : k < N := hk
      rw [forUp, ih (by omega), sum_range_succ]
      have hc : (prepared N S w e).coeff k = calcCoeff S w.var k (w.coeff k) := if_pos (by omega)
      have hA : (calcCoeff S w.var k (w.coeff k)).F.Fx = D.A k := hS.constraints.dfx _ _ _ _
      have hB : (calcCoeff S w.var k (w.coeff k)).F.Fu = D.B k := hS.constraints.dfu _ _ _ _
      have hC : (calcCoeff S w.var k (w.coeff k)).G.C = C k := hS.constraints.dgx _ _ _ _
      have hE : (calcCoeff S w.var k (w.coeff k)).G.D = E k := hS.constraints.dgu _ _ _ _
      have hl : (calcCoeff S w.var k (w.coeff k)).L = ⟨D.Q k *ᵥ w.var.x k + D.M k *ᵥ w.var.u k + D.q k,
        (D.M k)ᵀ *ᵥ w.var.x k + D.R k *ᵥ w.var.u k + D.r k, D.Q k, D.R k, D.M k⟩ := hS.dl _ _ _ _
      have e1 : (calcCoeff S w.var k (w.coeff k)).xbar = 0 := h.dyn k hk'
      have e2 : (calcCoeff S w.var k (w.coeff k)).gbar = 0 := h.ineq k hk'
      have e3 : (calcCoeff S w.var k (w.coeff k)).Lxbar = 0 := by
        have : (calcCoeff S w.var k (w.coeff k)).Lxbar = smulv (-1) (w.var.lam k) +
          smulv S.dt (calcCoeff S w.var k (w.coeff k)).L.Lx +
          FOps.mulVec (calcCoeff S w.var k (w.coeff k)).F.Fxᵀ (w.var.lam (k + 1)) +
          FOps.mulVec (calcCoeff S w.var k (w.coeff k)).G.Cᵀ (w.var.nu k) := rfl
        rw [this, hA, hC, hl, ← h.statx k hk']
        simp only [mulVec_real, smulv_real, statxRes]
        module
      have e4 : (calcCoeff S w.var k (w.coeff k)).Lubar = 0 := by
        have : (calcCoeff S w.var k (w.coeff k)).Lubar =
          smulv S.dt (calcCoeff S w.var k (w.coeff k)).L.Lu +
          FOps.mulVec (calcCoeff S w.var k (w.coeff k)).F.Fuᵀ (w.var.lam (k + 1)) +
          FOps.mulVec (calcCoeff S w.var k (w.coeff k)).G.Dᵀ (w.var.nu k) := rfl
        rw [this, hB, hE, hl, ← h.statu k hk']
        simp only [mulVec_real, smulv_real, statuRes]
      rw [hc, e1, e2, e3, e4, hz, hz, hz, h0, dot_self_eq]
      simp only [add_zero]
      congr 1
      refine sum_congr rfl fun j _ => ?_
      have hp := mul_pos (hw.1 k hk' j) (hw.2 k hk' j)
      simp [complError, max_eq_left hp.le]
  rw [key N le_rfl, ht, hz, add_zero]

end Local
end Nmpc.FMPC
