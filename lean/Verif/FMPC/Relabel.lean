import Verif.FMPC.Sim
import Verif.FMPC.L1
import Verif.FMPC.Newton
import Verif.BoxQP.Mirror
import Mathlib.Data.List.FinRange

/-!
# C127: FMPC does not depend on the order and orientation of the components

In exact arithmetic, for signed permutations of the components of the state and of the inputs, permutations of the inequality
constraints and a translation of the state, `FmpcSolver::solve` on the transformed problem returns the transformed variables with the
same status, the same trace and the same barrier parameter.  Only signed permutations are possible: the merit function uses 1-norms.
-/

namespace Nmpc.FMPC

set_option linter.unusedSectionVars false

open Matrix
open DDP (FDeriv LDeriv VDeriv timeAt)

/-- A signed permutation of `k` components. -/
structure SP (k : ℕ) where
  a : Fin k → ℝ
  sq : ∀ j, a j * a j = 1
  π : Equiv.Perm (Fin k)

namespace SP
variable {k l r : ℕ} (g : SP k) (h : SP l) (e : SP r)

/-- A vector in new components. -/
def v (x : Vec k ℝ) : Vec k ℝ := fun j => g.a j * x (g.π j)

/-- A vector in old components. -/
def vi (x : Vec k ℝ) : Vec k ℝ := fun j => g.a (g.π.symm j) * x (g.π.symm j)

/-- A matrix in new components. -/
def m (A : Mat k l ℝ) : Mat k l ℝ := fun i j => g.a i * A (g.π i) (h.π j) * h.a j

/-- A matrix in old components. -/
def mi (A : Mat k l ℝ) : Mat k l ℝ := fun i j =>
  g.a (g.π.symm i) * A (g.π.symm i) (h.π.symm j) * h.a (h.π.symm j)

theorem sq' (j : Fin k) (y : ℝ) : g.a j * (g.a j * y) = y := by rw [← mul_assoc, g.sq, one_mul]

theorem sgn (j : Fin k) : g.a j = 1 ∨ g.a j = -1 := mul_self_eq_one_iff.1 (g.sq j)

theorem abs_a (j : Fin k) : |g.a j| = 1 := by rcases g.sgn j with h | h <;> rw [h] <;> simp

@[simp] theorem vi_v (x : Vec k ℝ) : g.vi (g.v x) = x := by
  funext j; simp only [v, vi]; rw [sq', Equiv.apply_symm_apply]

@[simp] theorem v_vi (x : Vec k ℝ) : g.v (g.vi x) = x := by
  funext j; simp only [v, vi]; rw [Equiv.symm_apply_apply, sq']

@[simp] theorem mi_m (A : Mat k l ℝ) : g.mi h (g.m h A) = A := by
  funext i j
  simp only [m, mi]
  rw [Equiv.apply_symm_apply, Equiv.apply_symm_apply]
  linear_combination (h.a (h.π.symm j) * h.a (h.π.symm j)) * A i j * g.sq (g.π.symm i) + A i j * h.sq (h.π.symm j)

theorem v_add (x y : Vec k ℝ) : g.v (x + y) = g.v x + g.v y := by funext j; simp [v, mul_add]
theorem v_sub (x y : Vec k ℝ) : g.v (x - y) = g.v x - g.v y := by funext j; simp [v, mul_sub]
theorem v_smul (c : ℝ) (x : Vec k ℝ) : g.v (c • x) = c • g.v x := by funext j; simp [v, mul_left_comm]
theorem m_add (A B : Mat k l ℝ) : g.m h (A + B) = g.m h A + g.m h B := by funext i j; simp [m, mul_add, add_mul]
theorem m_sub (A B : Mat k l ℝ) : g.m h (A - B) = g.m h A - g.m h B := by funext i j; simp [m, mul_sub, sub_mul]
theorem m_smul (c : ℝ) (A : Mat k l ℝ) : g.m h (c • A) = c • g.m h A := by
  funext i j; simp [m, mul_left_comm, mul_assoc]
theorem m_tr (A : Mat k l ℝ) : (g.m h A)ᵀ = h.m g Aᵀ := by
  funext i j; simp only [m, transpose_apply]; ring

theorem m_mulVec (A : Mat k l ℝ) (x : Vec l ℝ) : g.m h A *ᵥ h.v x = g.v (A *ᵥ x) := by
  funext i
  simp only [m, v, mulVec, dotProduct]
  rw [Finset.mul_sum, ← Equiv.sum_comp h.π fun j => g.a i * (A (g.π i) j * x j)]
  refine Finset.sum_congr rfl fun j _ => ?_
  linear_combination g.a i * A (g.π i) (h.π j) * x (h.π j) * h.sq j

theorem m_mul (A : Mat k l ℝ) (B : Mat l r ℝ) : g.m h A * h.m e B = g.m e (A * B) := by
  funext i j
  simp only [m, mul_apply]
  rw [Finset.mul_sum, Finset.sum_mul, ← Equiv.sum_comp h.π fun s => g.a i * (A (g.π i) s * B s (e.π j)) * e.a j]
  refine Finset.sum_congr rfl fun s _ => ?_
  linear_combination g.a i * A (g.π i) (h.π s) * B (h.π s) (e.π j) * e.a j * h.sq s

theorem dot_v (x y : Vec k ℝ) : g.v x ⬝ᵥ g.v y = x ⬝ᵥ y := by
  simp only [v, dotProduct]
  rw [← Equiv.sum_comp g.π fun s => x s * y s]
  refine Finset.sum_congr rfl fun s _ => ?_
  linear_combination x (g.π s) * y (g.π s) * g.sq s

theorem m_one : g.m g (1 : Mat k k ℝ) = 1 := by
  funext i j
  simp only [m, one_apply]
  by_cases hij : i = j
  · subst hij; simp [g.sq]
  · rw [if_neg (fun hh => hij (g.π.injective hh)), if_neg hij]; simp

theorem l1norm_v (x : Vec k ℝ) : l1norm (g.v x) = l1norm x := by
  simp only [l1norm, sum_real, abs_real, v, abs_mul, abs_a, one_mul]
  exact Equiv.sum_comp g.π fun j => |x j|

theorem finRange_perm : ((List.finRange k).map g.π).Perm (List.finRange k) := by
  refine (List.perm_ext_iff_of_nodup ((List.nodup_finRange k).map g.π.injective) (List.nodup_finRange k)).2 fun j => ?_
  simp only [List.mem_map, List.mem_finRange, true_and, iff_true]
  exact ⟨g.π.symm j, by simp⟩

theorem maxAbs_eq (x : Vec k ℝ) : maxAbs x = ((List.finRange k).map fun j => |x j|).foldl max 0 := by
  unfold maxAbs
  have h0 : ∀ y ∈ (List.finRange k).map fun j => |x j|, 0 ≤ y := by
    intro y hy; obtain ⟨j, -, rfl⟩ := List.mem_map.1 hy; exact abs_nonneg _
  simp only [abs_real]
  generalize (List.finRange k).map (fun j => |x j|) = L at h0
  cases L with
  | nil => rfl
  | cons a as =>
    simp only [List.foldl_cons]
    rw [max_eq_right (h0 a (by simp))]
    congr 1
    funext a b
    exact fmax_real a b

theorem maxAbs_v (x : Vec k ℝ) : maxAbs (g.v x) = maxAbs x := by
  rw [maxAbs_eq, maxAbs_eq]
  have : (List.finRange k).map (fun j => |g.v x j|) = ((List.finRange k).map g.π).map fun j => |x j| := by
    rw [List.map_map]
    refine List.map_congr_left fun j _ => ?_
    simp [v, abs_mul, abs_a]
  rw [this]
  exact (g.finRange_perm.map _).foldl_eq' (fun a _ b _ z => by rw [max_assoc, max_assoc, max_comm a b]) 0

theorem l1Deriv_v (x : Vec k ℝ) (A : Mat k l ℝ) (y : Vec l ℝ) : l1Deriv (g.v x) (g.m h A) (h.v y) = l1Deriv x A y := by
  rw [l1Deriv_real, l1Deriv_real]
  rw [g.m_mulVec h A y, ← Equiv.sum_comp g.π fun i => dirAbs (x i) ((A *ᵥ y) i)]
  refine Finset.sum_congr rfl fun i _ => ?_
  simp only [v]
  rcases g.sgn i with h | h <;> rw [h]
  · rw [one_mul, one_mul]
  · unfold dirAbs
    rcases lt_trichotomy (x (g.π i)) 0 with hx | hx | hx
    · rw [if_pos (by linarith), if_neg (by linarith), if_pos hx]; ring
    · rw [hx]; simp
    · rw [if_neg (by linarith), if_pos (by linarith), if_pos hx]; ring

end SP

/-- What is needed of the factorisations: they do not depend on the order and orientation of the unknowns and are odd. -/
structure GainSolver.Equi (L : GainSolver ℝ) {k : ℕ} (h : SP k) : Prop where
  ok : ∀ M : Mat k k ℝ, L.ok (h.m h M) = L.ok M
  ldlt : ∀ (M : Mat k k ℝ) (b : Vec k ℝ), L.ldlt (h.m h M) (h.v b) = h.v (L.ldlt M b)
  lu : ∀ (M : Mat k k ℝ) (b : Vec k ℝ), L.lu (h.m h M) (h.v b) = h.v (L.lu M b)
  ldlt_neg : ∀ (M : Mat k k ℝ) (b : Vec k ℝ), L.ldlt M (-b) = -L.ldlt M b
  lu_neg : ∀ (M : Mat k k ℝ) (b : Vec k ℝ), L.lu M (-b) = -L.lu M b

/-- New components: `y = X x + b` for the state, `U` for inputs, `G` for constraints. -/
structure Relabel (n : ℕ) where
  X : SP n
  b : Vec n ℝ
  U : (k : ℕ) → SP k
  G : (k : ℕ) → SP k
  hG : ∀ k j, (G k).a j = 1

namespace Relabel
variable {n : ℕ} {m p : ℕ → ℕ} (R : Relabel n)

def into (x : Vec n ℝ) : Vec n ℝ := R.X.v x + R.b

def back (y : Vec n ℝ) : Vec n ℝ := R.X.vi (y - R.b)

@[simp] theorem back_into (x : Vec n ℝ) : R.back (R.into x) = x := by
  rw [back, into, add_sub_cancel_right, SP.vi_v]

section Parts
variable {m p : ℕ}

def F (d : FDeriv n m ℝ) : FDeriv n m ℝ := ⟨R.X.m R.X d.Fx, R.X.m (R.U m) d.Fu⟩
def Fi (d : FDeriv n m ℝ) : FDeriv n m ℝ := ⟨R.X.mi R.X d.Fx, R.X.mi (R.U m) d.Fu⟩
def D (d : GDeriv n m p ℝ) : GDeriv n m p ℝ := ⟨(R.G p).m R.X d.C, (R.G p).m (R.U m) d.D⟩
def Di (d : GDeriv n m p ℝ) : GDeriv n m p ℝ := ⟨(R.G p).mi R.X d.C, (R.G p).mi (R.U m) d.D⟩
def L (d : LDeriv n m ℝ) : LDeriv n m ℝ :=
  ⟨R.X.v d.Lx, (R.U m).v d.Lu, R.X.m R.X d.Lxx, (R.U m).m (R.U m) d.Luu, R.X.m (R.U m) d.Lxu⟩
def Li (d : LDeriv n m ℝ) : LDeriv n m ℝ :=
  ⟨R.X.vi d.Lx, (R.U m).vi d.Lu, R.X.mi R.X d.Lxx, (R.U m).mi (R.U m) d.Luu, R.X.mi (R.U m) d.Lxu⟩
def V (d : VDeriv n ℝ) : VDeriv n ℝ := ⟨R.X.v d.Vx, R.X.m R.X d.Vxx⟩
def Vi (d : VDeriv n ℝ) : VDeriv n ℝ := ⟨R.X.vi d.Vx, R.X.mi R.X d.Vxx⟩

@[simp] theorem Fi_F (d : FDeriv n m ℝ) : R.Fi (R.F d) = d := by simp [F, Fi]
@[simp] theorem Di_D (d : GDeriv n m p ℝ) : R.Di (R.D d) = d := by simp [D, Di]
@[simp] theorem Li_L (d : LDeriv n m ℝ) : R.Li (R.L d) = d := by simp [L, Li]
@[simp] theorem Vi_V (d : VDeriv n ℝ) : R.Vi (R.V d) = d := by simp [V, Vi]

def coeff (c : Coeff n m p ℝ) : Coeff n m p ℝ where
  F := R.F c.F
  G := R.D c.G
  L := R.L c.L
  xbar := R.X.v c.xbar
  gbar := (R.G p).v c.gbar
  Lxbar := R.X.v c.Lxbar
  Lubar := (R.U m).v c.Lubar
  k := (R.U m).v c.k
  K := (R.U m).m R.X c.K
  s := R.X.v c.s
  P := R.X.m R.X c.P

def term (c : TCoeff n ℝ) : TCoeff n ℝ where
  V := R.V c.V
  Lxbar := R.X.v c.Lxbar
  s := R.X.v c.s
  P := R.X.m R.X c.P
  unset := c.unset

def gain (q : GainData n m ℝ) : GainData n m ℝ where
  F := R.X.m R.X q.F
  H := R.X.m (R.U m) q.H
  G := (R.U m).m (R.U m) q.G
  Lx := R.X.v q.Lx
  Lu := (R.U m).v q.Lu

end Parts

/-- The problem in new components. -/
def stages (S : Stages n m p ℝ) : Stages n m p ℝ where
  dt := S.dt
  f i y u := R.into (S.f i (R.back y) ((R.U (m i)).vi u))
  l i y u := S.l i (R.back y) ((R.U (m i)).vi u)
  φ y := S.φ (R.back y)
  g i y u := (R.G (p i)).v (S.g i (R.back y) ((R.U (m i)).vi u))
  df i y u d := R.F (S.df i (R.back y) ((R.U (m i)).vi u) (R.Fi d))
  dg i y u d := R.D (S.dg i (R.back y) ((R.U (m i)).vi u) (R.Di d))
  dl i y u d := R.L (S.dl i (R.back y) ((R.U (m i)).vi u) (R.Li d))
  dφ y d := R.V (S.dφ (R.back y) (R.Vi d))

/-- Variables in new components; the list of states has `N + 1` entries. -/
def var (N : ℕ) (v : Var n m p ℝ) : Var n m p ℝ where
  x i := if i ≤ N then R.into (v.x i) else R.X.v (v.x i)
  u i := (R.U (m i)).v (v.u i)
  lam i := R.X.v (v.lam i)
  s i := (R.G (p i)).v (v.s i)
  nu i := (R.G (p i)).v (v.nu i)

/-- Directions in new components. -/
def dir (v : Var n m p ℝ) : Var n m p ℝ where
  x i := R.X.v (v.x i)
  u i := (R.U (m i)).v (v.u i)
  lam i := R.X.v (v.lam i)
  s i := (R.G (p i)).v (v.s i)
  nu i := (R.G (p i)).v (v.nu i)

def solver (N : ℕ) (w : Solver n m p ℝ) : Solver n m p ℝ :=
  { w with var := R.var N w.var, delta := R.dir w.delta, coeff := fun i => R.coeff (w.coeff i), term := R.term w.term }

theorem G_v {k : ℕ} (x : Vec k ℝ) (j : Fin k) : (R.G k).v x j = x ((R.G k).π j) := by rw [SP.v, R.hG, one_mul]

theorem into_sub (x y : Vec n ℝ) : R.into x - R.into y = R.X.v (x - y) := by
  rw [into, into, add_sub_add_right_eq_sub, SP.v_sub]

variable {lin : GainSolver ℝ} {cfg : Config ℝ} {N : ℕ} {S : Stages n m p ℝ} {x0 : Vec n ℝ}

theorem var_x {i : ℕ} (h : i ≤ N) (v : Var n m p ℝ) : (R.var N v).x i = R.into (v.x i) := if_pos h

theorem updateEps_rel (v : Var n m p ℝ) : updateEps N (R.var N v) = updateEps N v := by
  unfold updateEps
  have : ∀ i, FOps.dot ((R.var N v).s i) ((R.var N v).nu i) = FOps.dot (v.s i) (v.nu i) := fun i => (R.G (p i)).dot_v _ _
  simp only [this]

theorem calcCoeff_rel (v : Var n m p ℝ) {i : ℕ} (hi : i < N) (c : Coeff n (m i) (p i) ℝ) :
    calcCoeff (R.stages S) (R.var N v) i (R.coeff c) = R.coeff (calcCoeff S v i c) := by
  unfold calcCoeff
  dsimp only
  rw [R.var_x hi.le, R.var_x (show i + 1 ≤ N from hi)]
  unfold coeff stages var
  simp only [back_into, SP.vi_v, Fi_F, Di_D, Li_L, into_sub, mulVec_real, smulv_real]
  unfold F D L
  simp only [SP.m_tr, SP.m_mulVec, ← SP.v_add, ← SP.v_smul]

theorem calcTerm_rel (v : Var n m p ℝ) (c : TCoeff n ℝ) :
    calcTerm N (R.stages S) (R.var N v) (R.term c) = R.term (calcTerm N S v c) := by
  unfold calcTerm
  dsimp only
  rw [R.var_x le_rfl]
  unfold term stages var
  simp only [back_into, Vi_V]
  unfold V
  simp only [← SP.v_sub]

theorem prepare_rel (w : Solver n m p ℝ) :
    prepare N cfg (R.stages S) (R.solver N w) = (prepare N cfg S w).map (R.solver N) := by
  unfold prepare
  rw [show (R.solver N w).eps = w.eps from rfl, show (R.solver N w).var = R.var N w.var from rfl, updateEps_rel]
  generalize (if cfg.updateBarrierEps = true then updateEps N w.var else Res.ok w.eps) = e
  cases e with
  | ok e =>
    show Res.ok _ = Res.ok _
    congr 1
    unfold solver
    dsimp only
    congr 1
    · funext i
      split
      · exact R.calcCoeff_rel _ (by assumption) _
      · rfl
    · exact R.calcTerm_rel _ _
  | _ => rfl

theorem kkt_rel (w : Solver n m p ℝ) :
    calcKktError N 0 (R.into x0) (R.solver N w).var (R.solver N w).coeff (R.solver N w).term =
      calcKktError N 0 x0 w.var w.coeff w.term := by
  unfold calcKktError
  have hc : ∀ i, complError 0 ((R.solver N w).var.s i) ((R.solver N w).var.nu i) =
      (R.G (p i)).v (complError 0 (w.var.s i) (w.var.nu i)) := by
    intro i
    funext j
    rw [R.G_v]
    unfold complError
    rw [show (R.solver N w).var.s i j = _ from R.G_v (w.var.s i) j, show (R.solver N w).var.nu i j = _ from R.G_v (w.var.nu i) j]
  simp only [hc]
  rw [show (R.solver N w).var.x 0 = R.into (w.var.x 0) from R.var_x (Nat.zero_le _) _, into_sub]
  unfold solver coeff term
  simp only [sqNorm_real, SP.dot_v]

section Stage
variable {m p : ℕ}

theorem nuS_rel (s nu : Vec p ℝ) : nuS ((R.G p).v s) ((R.G p).v nu) = (R.G p).v (nuS s nu) := by
  funext j; simp only [nuS, R.G_v]

theorem tildeSub_rel (eps : ℝ) (s nu gb : Vec p ℝ) :
    tildeSub eps ((R.G p).v s) ((R.G p).v nu) ((R.G p).v gb) = (R.G p).v (tildeSub eps s nu gb) := by
  funext j; simp only [tildeSub, nuS_rel, R.G_v]

theorem mulDiag_rel {k : ℕ} (h : SP k) (A : Mat k p ℝ) (d : Vec p ℝ) :
    mulDiag (h.m (R.G p) A) ((R.G p).v d) = h.m (R.G p) (mulDiag A d) := by
  funext i j; simp only [mulDiag, R.G_v, SP.m, R.hG]; ring

theorem gainData_rel (dt eps : ℝ) (s nu : Vec p ℝ) (c : Coeff n m p ℝ) (P : Mat n n ℝ) :
    gainData dt eps ((R.G p).v s) ((R.G p).v nu) (R.coeff c) (R.X.m R.X P) = R.gain (gainData dt eps s nu c P) := by
  unfold gainData gain coeff
  dsimp only
  rw [nuS_rel, tildeSub_rel]
  unfold F D L
  simp only [mulVec_real, matMul_real, smulm_real, SP.m_tr, SP.m_mulVec, mulDiag_rel, SP.m_mul, ← SP.v_add, ← SP.m_smul, ← SP.m_add]

theorem solveCols_rel {k : ℕ} (h : SP k) {slv slv' : Vec k ℝ → Vec k ℝ} (h1 : ∀ b, slv' (h.v b) = h.v (slv b))
    (h2 : ∀ b, slv (-b) = -slv b) (A : Mat k n ℝ) : solveCols slv' (h.m R.X A) = h.m R.X (solveCols slv A) := by
  funext i j
  unfold solveCols
  have hc : (fun r => h.m R.X A r j) = h.v (R.X.a j • fun r => A r (R.X.π j)) := by
    funext r; simp only [SP.m, SP.v, Pi.smul_apply, smul_eq_mul]; ring
  rw [hc, h1]
  simp only [SP.v, SP.m]
  rcases R.X.sgn j with hj | hj <;> rw [hj]
  · rw [one_smul, mul_one]
  · rw [neg_one_smul, h2, Pi.neg_apply]; ring

theorem solveGains_rel (hL : lin.Equi (R.U m)) (q : GainData n m ℝ) (Fu : Mat n m ℝ) (xbar s : Vec n ℝ) (P : Mat n n ℝ) :
    solveGains lin cfg (R.gain q) (R.X.m (R.U m) Fu) (R.X.v xbar) (R.X.v s) (R.X.m R.X P) =
      (solveGains lin cfg q Fu xbar s P).map fun r => ((R.U m).v r.1, (R.U m).m R.X r.2) := by
  unfold solveGains gain
  simp only [mulVec_real, smulv_real, smulm_real, SP.m_tr, SP.m_mulVec, ← SP.v_sub, ← SP.v_add, hL.ok, hL.ldlt, hL.lu,
    R.solveCols_rel (R.U m) (hL.ldlt _) (hL.ldlt_neg _), R.solveCols_rel (R.U m) (hL.lu _) (hL.lu_neg _), ← SP.v_smul, ← SP.m_smul]
  split
  · split
    · rfl
    · split <;> rfl
  · show some _ = some _
    congr 2
    · funext j; simp [SP.v]
    · funext i j; simp [SP.m]

theorem bwStage_rel (hL : lin.Equi (R.U m)) (dt eps : ℝ) (sl nu : Vec p ℝ) (c : Coeff n m p ℝ) (s : Vec n ℝ) (P : Mat n n ℝ) :
    bwStage lin cfg dt eps ((R.G p).v sl) ((R.G p).v nu) (R.coeff c) (R.X.v s) (R.X.m R.X P) =
      (bwStage lin cfg dt eps sl nu c s P).map R.coeff := by
  unfold bwStage
  dsimp only
  rw [gainData_rel]
  have := R.solveGains_rel (cfg := cfg) hL (gainData dt eps sl nu c P) c.F.Fu c.xbar s P
  rw [show (R.coeff c).F.Fu = R.X.m (R.U m) c.F.Fu from rfl, show (R.coeff c).xbar = R.X.v c.xbar from rfl, this]
  cases solveGains lin cfg (gainData dt eps sl nu c P) c.F.Fu c.xbar s P with
  | none => rfl
  | some r =>
    obtain ⟨k, K⟩ := r
    show some _ = some _
    congr 1
    unfold coeff F gain
    simp only [mulVec_real, matMul_real, smulm_real, SP.m_tr, SP.m_mulVec, SP.m_mul, ← SP.v_sub, ← SP.m_sub, ← SP.m_add, ← SP.m_smul]

end Stage

theorem bwLoop_rel (hL : ∀ i < N, lin.Equi (R.U (m i))) (dt eps : ℝ) (v : Var n m p ℝ) (i : ℕ) (hi : i ≤ N) (s : Vec n ℝ)
    (P : Mat n n ℝ) (co : (i : ℕ) → Coeff n (m i) (p i) ℝ) :
    bwLoop lin cfg dt eps (R.var N v) i (R.X.v s) (R.X.m R.X P) (fun i => R.coeff (co i)) =
      ((bwLoop lin cfg dt eps v i s P co).1, fun j => R.coeff ((bwLoop lin cfg dt eps v i s P co).2 j)) := by
  induction i generalizing s P co with
  | zero => rfl
  | succ i ih =>
    unfold bwLoop
    have h := R.bwStage_rel (cfg := cfg) (hL i (by omega)) dt eps (v.s i) (v.nu i) (co i) s P
    rw [show (R.var N v).s i = (R.G (p i)).v (v.s i) from rfl, show (R.var N v).nu i = (R.G (p i)).v (v.nu i) from rfl, h]
    cases bwStage lin cfg dt eps (v.s i) (v.nu i) (co i) s P with
    | none => rfl
    | some c =>
      show bwLoop lin cfg dt eps (R.var N v) i (R.X.v c.s) (R.X.m R.X c.P) (Function.update (fun i => R.coeff (co i)) i (R.coeff c)) = _
      have hu : Function.update (fun i => R.coeff (co i)) i (R.coeff c) = fun j => R.coeff (Function.update co i c j) := by
        funext j
        by_cases hj : j = i
        · subst hj; simp
        · simp [hj]
      rw [hu]
      exact ih (by omega) _ _ _

theorem coeffNaN {m p : ℕ} (c : Coeff n m p ℝ) : c.containsNaN = false := by
  simp [Coeff.containsNaN, not_bad_real, not_bad_real']

theorem termNaN (c : TCoeff n ℝ) : c.containsNaN = false := by
  simp [TCoeff.containsNaN, not_bad_real, not_bad_real']

theorem varNaN (v : Var n m p ℝ) : v.containsNaN N = false := by
  simp [Var.containsNaN, not_bad_real]

theorem backwardPass_rel (hL : ∀ i < N, lin.Equi (R.U (m i))) (w : Solver n m p ℝ) :
    backwardPass lin N cfg (R.stages S) (R.solver N w) =
      ((backwardPass lin N cfg S w).1, R.solver N (backwardPass lin N cfg S w).2) := by
  unfold backwardPass
  have h := R.bwLoop_rel (cfg := cfg) hL S.dt w.eps w.var N le_rfl ((-1 : ℝ) • w.term.Lxbar) w.term.V.Vxx w.coeff
  simp only [SP.v_smul] at h
  have hany : ∀ l : List ℕ, (l.any fun _ => false) = false := fun l => by induction l <;> simp_all
  simp only [coeffNaN, termNaN, hany, Bool.or_self, Bool.and_false, Bool.false_eq_true, if_false, smulv_real]
  rw [show bwLoop lin cfg (R.stages S).dt (R.solver N w).eps (R.solver N w).var N ((-1 : ℝ) • (R.solver N w).term.Lxbar)
    (R.solver N w).term.V.Vxx (R.solver N w).coeff = _ from h]
  dsimp only
  split <;> (unfold solver term; simp only [SP.v_smul]; rfl)

theorem deltaX_rel (co : (i : ℕ) → Coeff n (m i) (p i) ℝ) (dx : Vec n ℝ) (i : ℕ) :
    deltaX (fun i => R.coeff (co i)) (R.X.v dx) i = R.X.v (deltaX co dx i) := by
  induction i with
  | zero => rfl
  | succ i ih =>
    simp only [deltaX]
    rw [ih]
    unfold coeff F
    simp only [mulVec_real, SP.m_mulVec, ← SP.v_add]

theorem forwardDelta_rel (eps : ℝ) (v : Var n m p ℝ) (co : (i : ℕ) → Coeff n (m i) (p i) ℝ) (t : TCoeff n ℝ) :
    forwardDelta N eps (R.into x0) (R.var N v) (fun i => R.coeff (co i)) (R.term t) = R.dir (forwardDelta N eps x0 v co t) := by
  unfold forwardDelta
  dsimp only
  rw [R.var_x (Nat.zero_le _), into_sub]
  simp only [deltaX_rel]
  unfold dir coeff D term
  simp only [mulVec_real, smulv_real, SP.m_mulVec, ← SP.v_add, ← SP.v_sub, ← SP.v_smul]
  congr 1
  · funext i
    exact R.deltaX_rel co _ i
  · funext i
    split <;> rfl
  · funext i j
    simp only [R.G_v, var]

theorem forwardPass_rel (w : Solver n m p ℝ) :
    forwardPass N cfg (R.into x0) (R.solver N w) = ((forwardPass N cfg x0 w).1, R.solver N (forwardPass N cfg x0 w).2) := by
  unfold forwardPass
  simp only [varNaN, Bool.and_false, Bool.not_false]
  unfold solver
  rw [R.forwardDelta_rel]

theorem foldl_perm {k : ℕ} (h : SP k) {β : Type} (f : β → Fin k → β) (hf : ∀ z a b, f (f z a) b = f (f z b) a) (z : β) :
    (List.finRange k).foldl (fun z j => f z (h.π j)) z = (List.finRange k).foldl f z := by
  rw [← List.foldl_map (f := h.π) (g := f)]
  exact h.finRange_perm.foldl_eq' (fun a _ b _ z => hf z a b) z

theorem any_perm {k : ℕ} (h : SP k) (f : Fin k → Bool) :
    ((List.finRange k).any fun j => f (h.π j)) = (List.finRange k).any f := by
  rw [Bool.eq_iff_iff]
  simp only [List.any_eq_true, List.mem_finRange, true_and]
  exact ⟨fun ⟨j, hj⟩ => ⟨_, hj⟩, fun ⟨j, hj⟩ => ⟨h.π.symm j, by simpa using hj⟩⟩

theorem alphaMax_rel (v dv : (i : ℕ) → Vec (p i) ℝ) :
    alphaMax N (fun i => (R.G (p i)).v (v i)) (fun i => (R.G (p i)).v (dv i)) = alphaMax N v dv := by
  unfold alphaMax
  refine forUp_congr fun i _ a => ?_
  simp only [R.G_v]
  refine foldl_perm (R.G (p i)) (fun a j => if ltb (dv i j) 0 then fmin a ((-1) * lit (995 / 1000) * v i j / dv i j) else a) ?_ a
  intro z j j'
  simp only [fmin_real]
  split <;> split <;> first | rfl | exact min_right_comm _ _ _

theorem repair_rel {k : ℕ} (x : Vec k ℝ) : repair ((R.G k).v x) = (R.G k).v (repair x) := by
  unfold repair
  simp only [R.G_v]
  rw [any_perm (R.G k) fun j => ltb (x j) 0]
  split
  · funext j; rw [R.G_v]
  · rfl

theorem meritObj_rel (eps : ℝ) (v : Var n m p ℝ) : meritObj N (R.stages S) eps (R.var N v) = meritObj N S eps v := by
  unfold meritObj
  congr 1
  · refine forUp_congr fun i hi a => ?_
    rw [R.var_x (by omega)]
    unfold stages var
    simp only [back_into, SP.vi_v, sum_real, R.G_v]
    rw [Equiv.sum_comp (R.G (p i)).π fun j => FOps.log (v.s i j)]
  · rw [R.var_x le_rfl]
    unfold stages
    simp only [back_into]

theorem meritConst_rel (v : Var n m p ℝ) : meritConst N (R.stages S) (R.into x0) (R.var N v) = meritConst N S x0 v := by
  unfold meritConst
  rw [R.var_x (Nat.zero_le _), into_sub, SP.l1norm_v]
  refine forUp_congr fun i hi a => ?_
  rw [R.var_x (by omega), R.var_x (show i + 1 ≤ N from hi)]
  unfold stages var
  simp only [back_into, SP.vi_v, into_sub, ← SP.v_add, SP.l1norm_v]

theorem calcMerit_rel (eps sc : ℝ) (v : Var n m p ℝ) :
    calcMerit N (R.stages S) eps (R.into x0) sc (R.var N v) = calcMerit N S eps x0 sc v := by
  unfold calcMerit
  rw [meritObj_rel, meritConst_rel]

theorem meritDerivObj_rel (w : Solver n m p ℝ) : meritDerivObj N (R.stages S) (R.solver N w) = meritDerivObj N S w := by
  unfold meritDerivObj
  have h1 : ∀ i, (fun j => 1 / (R.solver N w).var.s i j) = (R.G (p i)).v fun j => 1 / w.var.s i j := by
    intro i
    funext j
    rw [R.G_v, show (R.solver N w).var.s i j = _ from R.G_v (w.var.s i) j]
  simp only [h1]
  unfold solver coeff term L V dir stages
  simp only [dot_real, SP.dot_v]

theorem meritDerivConst_rel (w : Solver n m p ℝ) :
    meritDerivConst N (R.stages S) (R.into x0) (R.solver N w) = meritDerivConst N S x0 w := by
  unfold meritDerivConst
  have h1 : ∀ (k : ℕ) (h : SP k) (x y : Vec k ℝ), l1Deriv (h.v x) (identM k) (h.v y) = l1Deriv x (identM k) y := by
    intro k h x y
    rw [identM_real]
    conv_lhs => rw [← h.m_one]
    exact h.l1Deriv_v h x 1 y
  have h2 : ∀ (k : ℕ) (h : SP k) (x y : Vec k ℝ), l1Deriv (h.v x) (smulm (-1) (identM k)) (h.v y) = l1Deriv x (smulm (-1) (identM k)) y := by
    intro k h x y
    rw [identM_real, smulm_real]
    conv_lhs => rw [← h.m_one, ← h.m_smul]
    exact h.l1Deriv_v h x _ y
  rw [show (R.solver N w).var.x 0 = R.into (w.var.x 0) from R.var_x (Nat.zero_le _) _, into_sub,
    show (R.solver N w).delta.x 0 = R.X.v (w.delta.x 0) from rfl, h2]
  refine forUp_congr fun i hi a => ?_
  rw [show (R.solver N w).var.x i = R.into (w.var.x i) from R.var_x (by omega) _,
    show (R.solver N w).var.x (i + 1) = R.into (w.var.x (i + 1)) from R.var_x (by omega) _]
  unfold solver stages var dir coeff F D
  simp only [back_into, SP.vi_v, into_sub, ← SP.v_add, h1, h2, SP.l1Deriv_v]

theorem setupMerit_rel (w : Solver n m p ℝ) : setupMerit N cfg (R.stages S) (R.into x0) (R.solver N w) = setupMerit N cfg S x0 w := by
  unfold setupMerit
  rw [meritDerivObj_rel, meritDerivConst_rel, show (R.solver N w).var = R.var N w.var from rfl,
    show (R.solver N w).eps = w.eps from rfl, meritObj_rel, meritConst_rel]
  have : ∀ a b, meritScale N cfg (R.var N w.var) a b = meritScale N cfg w.var a b := by
    intro a b
    unfold meritScale var
    simp only [SP.maxAbs_v]
  simp only [this]

theorem into_add (x y : Vec n ℝ) (a : ℝ) : R.into x + smulv a (R.X.v y) = R.into (x + smulv a y) := by
  rw [into, into, smulv_real, smulv_real, SP.v_add, SP.v_smul]; abel

theorem lsVar_rel (v d : Var n m p ℝ) (a : ℝ) : lsVar (R.var N v) (R.dir d) a = R.var N (lsVar v d a) := by
  unfold lsVar var dir
  congr 1
  · funext i
    dsimp only
    split
    · exact R.into_add _ _ _
    · rw [smulv_real, smulv_real, SP.v_add, SP.v_smul]
  · funext i; simp only [smulv_real, SP.v_add, SP.v_smul]
  · funext i; simp only [smulv_real, SP.v_add, SP.v_smul]

theorem applyStep_rel (v d : Var n m p ℝ) (a b : ℝ) : applyStep (R.var N v) (R.dir d) a b = R.var N (applyStep v d a b) := by
  unfold applyStep var dir
  congr 1
  · funext i
    dsimp only
    split
    · exact R.into_add _ _ _
    · rw [smulv_real, smulv_real, SP.v_add, SP.v_smul]
  · funext i; simp only [smulv_real, SP.v_add, SP.v_smul]
  · funext i; simp only [smulv_real, SP.v_add, SP.v_smul]
  · funext i; simp only [smulv_real, ← SP.v_smul, ← SP.v_add, repair_rel]
  · funext i; simp only [smulv_real, ← SP.v_smul, ← SP.v_add, repair_rel]

theorem armijo_rel (w : Solver n m p ℝ) : armijo N (R.stages S) (R.into x0) (R.solver N w) = armijo N S x0 w := by
  funext a
  unfold armijo
  rw [show lsVar (R.solver N w).var (R.solver N w).delta a = R.var N (lsVar w.var w.delta a) from R.lsVar_rel _ _ _, calcMerit_rel]
  rfl

theorem lineSearch_rel (w : Solver n m p ℝ) (a : ℝ) :
    lineSearch N cfg (R.stages S) (R.into x0) (R.solver N w) a = (lineSearch N cfg S x0 w a).map fun r => (r.1, R.solver N r.2) := by
  unfold lineSearch
  split
  · rw [setupMerit_rel]
    cases setupMerit N cfg S x0 w with
    | ok mt =>
      simp only [Res.bind]
      have h : armijo N (R.stages S) (R.into x0) { R.solver N w with merit := mt } = armijo N S x0 { w with merit := mt } :=
        R.armijo_rel (N := N) (S := S) (x0 := x0) { w with merit := mt }
      rw [h]
      cases loopM (lsStep (armijo N S x0 { w with merit := mt })) a <;> rfl
    | _ => rfl
  · rfl

theorem updateVariables_rel (w : Solver n m p ℝ) :
    updateVariables N cfg (R.stages S) (R.into x0) (R.solver N w) =
      (updateVariables N cfg S x0 w).map fun r => (r.1, R.solver N r.2) := by
  unfold updateVariables
  dsimp only
  rw [show alphaMax N (R.solver N w).var.s (R.solver N w).delta.s = alphaMax N w.var.s w.delta.s from R.alphaMax_rel _ _,
    show alphaMax N (R.solver N w).var.nu (R.solver N w).delta.nu = alphaMax N w.var.nu w.delta.nu from R.alphaMax_rel _ _]
  split
  · rw [lineSearch_rel]
    cases lineSearch N cfg S x0 w (alphaMax N w.var.s w.delta.s) with
    | ok r =>
      show Res.ok (true, { R.solver N r.2 with var := applyStep (R.var N w.var) (R.dir w.delta) r.1 (alphaMax N w.var.nu w.delta.nu) }) = _
      rw [applyStep_rel]
      rfl
    | _ => rfl
  · rfl

theorem procOnce_rel (hL : ∀ i < N, lin.Equi (R.U (m i))) (iter : ℕ) (w : Solver n m p ℝ) :
    procOnce lin N cfg (R.stages S) (R.into x0) iter (R.solver N w) =
      (procOnce lin N cfg S x0 iter w).map fun q => (R.solver N q.1, q.2) := by
  unfold procOnce
  rw [prepare_rel]
  cases prepare N cfg S w with
  | ok w1 =>
    simp only [Res.map, Res.bind]
    rw [kkt_rel]
    generalize calcKktError N 0 x0 w1.var w1.coeff w1.term = kkt
    split
    · rfl
    · have hb := R.backwardPass_rel (cfg := cfg) (S := S) hL { w1 with trace := w.trace ++ [{ iter := iter, kktError := kkt }] }
      rw [show backwardPass lin N cfg (R.stages S) { R.solver N w1 with
        trace := (R.solver N w).trace ++ [{ iter := iter, kktError := kkt }] } = _ from hb]
      generalize backwardPass lin N cfg S _ = bp
      obtain ⟨ok, w2⟩ := bp
      cases ok with
      | false => rfl
      | true =>
        simp only [if_true]
        rw [R.forwardPass_rel]
        generalize forwardPass N cfg x0 w2 = fp
        obtain ⟨ok, w3⟩ := fp
        cases ok with
        | false => rfl
        | true =>
          simp only [if_true]
          rw [R.updateVariables_rel]
          cases updateVariables N cfg S x0 w3 <;> rfl
  | _ => rfl

theorem optLoop_rel (hL : ∀ i < N, lin.Equi (R.U (m i))) (r iter : ℕ) (st : Status) (w : Solver n m p ℝ) :
    optLoop lin N cfg (R.stages S) (R.into x0) r iter st (R.solver N w) =
      (optLoop lin N cfg S x0 r iter st w).map fun q => (R.solver N q.1, q.2) := by
  induction r generalizing iter st w with
  | zero => rfl
  | succ r ih =>
    unfold optLoop
    rw [R.procOnce_rel hL]
    cases procOnce lin N cfg S x0 iter w with
    | ok q =>
      simp only [Res.map, Res.bind]
      split
      · rfl
      · exact ih _ _ _
    | _ => rfl

theorem runSolver_rel (hL : ∀ i < N, lin.Equi (R.U (m i))) (w : Solver n m p ℝ) :
    runSolver lin N cfg (R.stages S) (R.into x0) (R.solver N w) =
      (runSolver lin N cfg S x0 w).map fun q => (R.solver N q.1, q.2) := by
  unfold runSolver
  rw [R.optLoop_rel hL]
  cases optLoop lin N cfg S x0 cfg.maxIter.toNat 1 .uninitialized w with
  | ok q =>
    simp only [Res.map, Res.bind]
    rw [show (R.solver N q.1).trace = q.1.trace from rfl]
    split <;> rfl
  | _ => rfl

/-! ## `solve` -/

/-- Vectors of any dimension in new components. -/
def listOf (h : (k : ℕ) → SP k) (l : List (Σ k : ℕ, Vec k ℝ)) : List (Σ k : ℕ, Vec k ℝ) := l.map fun e => ⟨e.1, (h e.1).v e.2⟩

/-- The user's variables in new components. -/
def varL (v : VarL n ℝ) : VarL n ℝ where
  xs := v.xs.map R.into
  us := listOf R.U v.us
  lams := v.lams.map R.X.v
  ss := listOf R.G v.ss
  nus := listOf R.G v.nus

/-- The solver object in new components: the trace and the barrier parameter are the same. -/
def obj (o : Obj n ℝ) : Obj n ℝ := { o with var := R.varL o.var }

/-- The buffers in new components. -/
def scratch (s : Scratch n m p ℝ) : Scratch n m p ℝ :=
  { s with delta := R.dir s.delta, coeff := fun i => R.coeff (s.coeff i), term := R.term s.term }

/-- The problem in new components: dynamics `X f(t, x, u) + b`, constraints `G g(t, x, u)`, costs `l(t, x, u)`, `φ(t, x)` at
`x = X⁻¹ (y - b)`, `u = U⁻¹ v`; derivatives by the chain rule. -/
def callbacks {md pd : ℝ → ℕ} (P : Callbacks n md pd) : Callbacks n md pd where
  stateEq t y u := R.into (P.stateEq t (R.back y) ((R.U _).vi u))
  runningCost t y u := P.runningCost t (R.back y) ((R.U _).vi u)
  terminalCost t y := P.terminalCost t (R.back y)
  ineqConst t y u := (R.G _).v (P.ineqConst t (R.back y) ((R.U _).vi u))
  stateEqDeriv t y u d := R.F (P.stateEqDeriv t (R.back y) ((R.U _).vi u) (R.Fi d))
  ineqConstDeriv t y u d := R.D (P.ineqConstDeriv t (R.back y) ((R.U _).vi u) (R.Di d))
  runningCostDeriv t y u d := R.L (P.runningCostDeriv t (R.back y) ((R.U _).vi u) (R.Li d))
  terminalCostDeriv t y d := R.V (P.terminalCostDeriv t (R.back y) (R.Vi d))

@[simp] theorem listOf_length (h : (k : ℕ) → SP k) (l : List (Σ k : ℕ, Vec k ℝ)) : (listOf h l).length = l.length := List.length_map _

theorem listOf_fst (h : (k : ℕ) → SP k) (l : List (Σ k : ℕ, Vec k ℝ)) : (listOf h l).map Sigma.fst = l.map Sigma.fst := by
  simp [listOf, Function.comp_def]

theorem inputAt_rel (h : (k : ℕ) → SP k) (l : List (Σ k : ℕ, Vec k ℝ)) (i : ℕ) :
    DDP.inputAt (m := m) (listOf h l) i = (h (m i)).v (DDP.inputAt (m := m) l i) := by
  unfold DDP.inputAt listOf
  rw [List.getElem?_map]
  cases l[i]? with
  | none => funext j; simp [SP.v]
  | some e =>
    obtain ⟨k, u⟩ := e
    dsimp only [Option.map]
    by_cases hk : k = m i
    · subst hk; simp
    · rw [dif_neg hk, dif_neg hk]
      funext j; simp [SP.v]

theorem stateAt_lin (l : List (Vec n ℝ)) (i : ℕ) : stateAt (l.map R.X.v) i = R.X.v (stateAt l i) := by
  unfold stateAt
  rw [List.getElem?_map]
  cases l[i]? with
  | none => funext j; simp [SP.v]
  | some e => rfl

theorem stateAt_aff {l : List (Vec n ℝ)} (hl : l.length = N + 1) (i : ℕ) :
    stateAt (l.map R.into) i = if i ≤ N then R.into (stateAt l i) else R.X.v (stateAt l i) := by
  unfold stateAt
  rw [List.getElem?_map]
  by_cases hi : i ≤ N
  · rw [if_pos hi, List.getElem?_eq_getElem (by omega)]
    rfl
  · rw [if_neg hi, List.getElem?_eq_none (by omega)]
    funext j; simp [SP.v]

theorem toVar_rel {v : VarL n ℝ} (hl : v.xs.length = N + 1) : (R.varL v).toVar = R.var N (v.toVar : Var n m p ℝ) := by
  unfold VarL.toVar var varL
  congr 1
  · funext i; exact R.stateAt_aff hl i
  · funext i; exact inputAt_rel _ _ _
  · funext i; exact R.stateAt_lin _ _
  · funext i; exact inputAt_rel _ _ _
  · funext i; exact inputAt_rel _ _ _

theorem out_rel (v : Var n m p ℝ) : (R.var N v).out N = R.varL (v.out N) := by
  unfold Var.out varL listOf
  simp only [List.map_map]
  congr 1
  refine List.map_congr_left fun i hi => ?_
  exact R.var_x (by rw [List.mem_range] at hi; omega) v

variable {md pd : ℝ → ℕ} {P : Callbacks n md pd} {dt t0 : ℝ}

theorem initSNu_rel {k : ℕ} (g : Vec k ℝ) :
    initSNu ((R.G k).v g) = ((R.G k).v (initSNu g).1, (R.G k).v (initSNu g).2) := by
  unfold initSNu
  refine Prod.ext ?_ ?_ <;> funext j <;> simp only [R.G_v]

theorem initCompl_rel (i : ℕ) (v : VarL n ℝ) :
    initCompl (R.callbacks P) t0 dt i (R.varL v) = (initCompl P t0 dt i v).map R.varL := by
  induction i with
  | zero => rfl
  | succ i ih =>
    unfold initCompl
    rw [ih]
    cases initCompl P t0 dt i v with
    | ok w =>
      simp only [Res.map, Res.bind]
      rw [show (R.varL w).xs = w.xs.map R.into from rfl, show (R.varL w).us = listOf R.U w.us from rfl,
        show (R.varL w).ss = listOf R.G w.ss from rfl, show (R.varL w).nus = listOf R.G w.nus from rfl, listOf_length, listOf_length,
        show (listOf R.U w.us)[i]? = w.us[i]?.map _ from List.getElem?_map, List.getElem?_map]
      cases w.xs[i]? with
      | none => rfl
      | some x =>
        cases w.us[i]? with
        | none => rfl
        | some e =>
          obtain ⟨k, u⟩ := e
          dsimp only [Option.map]
          split
          · by_cases hk : k = md (timeAt t0 dt i)
            · subst hk
              rw [dif_pos rfl, dif_pos rfl]
              dsimp only
              rw [show (R.callbacks P).ineqConst (timeAt t0 dt i) (R.into x) ((R.U _).v u) =
                (R.G _).v (P.ineqConst (timeAt t0 dt i) (R.back (R.into x)) ((R.U _).vi ((R.U _).v u))) from rfl,
                back_into, SP.vi_v, initSNu_rel]
              unfold varL listOf
              simp only [List.map_set]
            · rw [dif_neg hk, dif_neg hk]
          · rfl
    | _ => rfl

theorem anyNeg_rel (l : List (Σ k : ℕ, Vec k ℝ)) : anyNeg (listOf R.G l) = anyNeg l := by
  unfold anyNeg listOf
  rw [List.any_map]
  congr 1
  funext e
  simp only [Function.comp, R.G_v]
  exact any_perm (R.G e.1) fun j => ltb (e.2 j) 0

theorem checkVariable_rel (hz : ℤ) (v : VarL n ℝ) : checkVariable md pd t0 dt hz (R.varL v) = checkVariable md pd t0 dt hz v := by
  unfold checkVariable
  simp only [varL, List.length_map, listOf_length, listOf_fst, anyNeg_rel]

variable {o : Obj n ℝ} {init : VarL n ℝ}
  {sc : Scratch n (fun i => md (timeAt t0 dt i)) (fun i => pd (timeAt t0 dt i)) ℝ}

theorem initSolver_rel {m p : ℕ → ℕ} {sc : Scratch n m p ℝ} {v : VarL n ℝ} (hl : v.xs.length = N + 1) (eps : ℝ) :
    initSolver (R.varL v) eps (R.scratch sc) = R.solver N (initSolver v eps sc) := by
  unfold initSolver solver scratch
  rw [R.toVar_rel hl]

/-- **C127** `FmpcSolver::solve` commutes with signed permutations of the components of states and inputs, permutations of the
constraints and translations of the state. -/
theorem _root_.Nmpc.FMPC.C127_relabel (R : Relabel n) (hL : ∀ i < init.us.length, lin.Equi (R.U (md (timeAt t0 dt i)))) :
    solve lin (R.callbacks P) dt cfg (R.obj o) t0 (R.scratch sc) (R.into x0) (R.varL init) =
      (R.obj (solve lin P dt cfg o t0 sc x0 init).1, (solve lin P dt cfg o t0 sc x0 init).2) := by
  unfold solve
  dsimp only
  have hi : (if cfg.initComplementary = true then initCompl (R.callbacks P) t0 dt cfg.horizon.toNat (R.varL init)
      else Res.ok (R.varL init)) = (if cfg.initComplementary = true then initCompl P t0 dt cfg.horizon.toNat init
      else Res.ok init).map R.varL := by
    split
    · exact R.initCompl_rel _ _
    · rfl
  rw [hi]
  have hus : ∀ v, (if cfg.initComplementary = true then initCompl P t0 dt cfg.horizon.toNat init else Res.ok init) = Res.ok v →
      v.us = init.us := by
    intro v hv
    split at hv
    · exact (initCompl_length hv).2.1
    · cases hv; rfl
  revert hus
  generalize (if cfg.initComplementary = true then initCompl P t0 dt cfg.horizon.toNat init else Res.ok init) = e
  intro hus
  cases e with
  | ok v =>
    have hu := hus v rfl
    rw [show (Res.ok v).map R.varL = Res.ok (R.varL v) from rfl]
    dsimp only
    rw [R.checkVariable_rel]
    cases hck : checkVariable md pd t0 dt cfg.horizon v with
    | ok x =>
      have hlen := ((checkVariable_iff v).2.2.1 hck).1
      have hl : v.xs.length = v.us.length + 1 := by
        have h1 := hlen.1
        have h2 := hlen.2.1
        omega
      rw [show (R.varL v).us.length = v.us.length from listOf_length _ _, show (R.obj o).eps = o.eps from rfl, R.initSolver_rel hl]
      have hr := R.runSolver_rel (lin := lin) (cfg := cfg) (S := stagesOf P t0 dt v.us.length) (x0 := x0) (N := v.us.length)
        (by rw [hu]; exact hL) (initSolver v (if cfg.initComplementary = true then initialBarrierEps else o.eps) sc)
      rw [show stagesOf (R.callbacks P) t0 dt v.us.length = R.stages (stagesOf P t0 dt v.us.length) from rfl, hr]
      cases runSolver lin v.us.length cfg (stagesOf P t0 dt v.us.length) x0
          (initSolver v (if cfg.initComplementary = true then initialBarrierEps else o.eps) sc) with
      | ok q =>
        obtain ⟨w, st⟩ := q
        refine Prod.ext ?_ rfl
        show ({ var := (R.var v.us.length w.var).out v.us.length, trace := w.trace, eps := w.eps } : Obj n ℝ) = _
        rw [R.out_rel]
        rfl
      | _ => rfl
    | _ => rfl
  | _ => rfl

/-- The first gain after a call that returned. -/
theorem firstGain_rel (hL : ∀ i < init.us.length, lin.Equi (R.U (md (timeAt t0 dt i)))) {o' : Obj n ℝ} {st : Status}
    (h : solve lin P dt cfg o t0 sc x0 init = (o', .ok st)) :
    firstGain lin (R.callbacks P) dt cfg (R.obj o) t0 (R.scratch sc) (R.into x0) (R.varL init) =
      (firstGain lin P dt cfg o t0 sc x0 init).map fun K => (R.U _).m R.X K := by
  obtain ⟨v, w, hv, hck, hr, -⟩ := solve_ok h
  have hv' : (if cfg.initComplementary = true then initCompl P t0 dt cfg.horizon.toNat init else Res.ok init) = Res.ok v := hv
  have hu : v.us = init.us := by
    split at hv'
    · exact (initCompl_length hv').2.1
    · cases hv'; rfl
  have hi : (if cfg.initComplementary = true then initCompl (R.callbacks P) t0 dt cfg.horizon.toNat (R.varL init)
      else Res.ok (R.varL init)) = Res.ok (R.varL v) := by
    split at hv'
    · rw [if_pos (by assumption), R.initCompl_rel, hv']; rfl
    · rw [if_neg (by assumption)]; cases hv'; rfl
  have hl : v.xs.length = v.us.length + 1 := by
    have hlen := ((checkVariable_iff v).2.2.1 hck).1
    have h1 := hlen.1
    have h2 := hlen.2.1
    omega
  unfold firstGain
  rw [hv', hi]
  simp only [Res.bind_ok]
  rw [show (R.varL v).us.length = v.us.length from listOf_length _ _, show (R.obj o).eps = o.eps from rfl, R.initSolver_rel hl,
    show stagesOf (R.callbacks P) t0 dt v.us.length = R.stages (stagesOf P t0 dt v.us.length) from rfl,
    R.runSolver_rel (by rw [hu]; exact hL)]
  cases runSolver lin v.us.length cfg (stagesOf P t0 dt v.us.length) x0
    (initSolver v (if cfg.initComplementary = true then initialBarrierEps else o.eps) sc) <;> rfl

end Relabel

section Loops
variable {n m p : ℕ} {lin : GainSolver ℝ} {P : Callbacks n (fun _ : ℝ => m) (fun _ => p)} {dt simDt endT t0 : ℝ} {cfg : Config ℝ}
  {plant plant' : ℝ → Vec n ℝ → Vec m ℝ → Vec n ℝ} {scr : ℕ → Scratch n (fun _ => m) (fun _ => p) ℝ} {o : Obj n ℝ} {x0 : Vec n ℝ}
  {init : VarL n ℝ}

/-- The loop in new components. -/
def Relabel.mpc (R : Relabel n) (s : Mpc n m ℝ) : Mpc n m ℝ :=
  { s with x := R.into s.x, var := R.varL s.var, obj := R.obj s.obj,
           log := s.log.map fun l => { l with x := R.into l.x, u := (R.U m).v l.u } }

/-- **C127** The receding-horizon loop of the FMPC example commutes with relabelling if the plant does. -/
theorem C127_loop (R : Relabel n) (hL : lin.Equi (R.U m))
    (hp : ∀ t x u, plant' t (R.into x) ((R.U m).v u) = R.into (plant t x u)) :
    mpcLoop lin (R.callbacks P) plant' dt simDt cfg (fun k => R.scratch (scr k)) endT (R.obj o) t0 (R.into x0) (R.varL init) =
      (mpcLoop lin P plant dt simDt cfg scr endT o t0 x0 init).map R.mpc := by
  have hstep : ∀ s : Mpc n m ℝ, mpcStep lin (R.callbacks P) plant' dt simDt cfg (fun k => R.scratch (scr k)) endT (R.mpc s) =
      (mpcStep lin P plant dt simDt cfg scr endT s).map R.mpc (Res.map R.mpc) := by
    intro s
    unfold mpcStep
    have h := C127_relabel (P := P) (dt := dt) (cfg := cfg) (o := s.obj) (t0 := s.t) (sc := scr s.k) (x0 := s.x) (init := s.var) R
      (fun _ _ => hL)
    rw [show solve lin (R.callbacks P) dt cfg (R.mpc s).obj (R.mpc s).t (R.scratch (scr (R.mpc s).k)) (R.mpc s).x (R.mpc s).var = _ from h]
    rw [show (R.mpc s).t = s.t from rfl]
    split
    · generalize solve lin P dt cfg s.obj s.t (scr s.k) s.x s.var = r
      obtain ⟨o1, e⟩ := r
      cases e with
      | ok st =>
        dsimp only
        unfold mpcNext
        rw [show (R.obj o1).trace = o1.trace from rfl,
          show (R.obj o1).var.us[0]? = o1.var.us[0]?.map fun e => ⟨e.1, (R.U e.1).v e.2⟩ from List.getElem?_map]
        cases o1.var.us[(0 : ℕ)]? with
        | none => rfl
        | some e =>
          obtain ⟨k, u⟩ := e
          cases o1.trace.getLast? with
          | none => rfl
          | some tr =>
            dsimp only [Option.map]
            by_cases hk : k = m
            · subst hk
              rw [dif_pos rfl, dif_pos rfl]
              simp only [Sum.map_inl]
              unfold Relabel.mpc
              simp only [hp, List.map_append, List.map_cons, List.map_nil]
              rfl
            · rw [dif_neg hk, dif_neg hk]; rfl
      | _ => rfl
    · rfl
  unfold mpcLoop loopR
  have := loopM_map R.mpc (Res.map R.mpc) hstep { k := 0, t := t0, x := x0, var := init, obj := o, log := [] }
  have h2 : loopM (mpcStep lin (R.callbacks P) plant' dt simDt cfg (fun k => R.scratch (scr k)) endT)
    { k := 0, t := t0, x := R.into x0, var := R.varL init, obj := R.obj o, log := [] } = _ := this
  rw [h2]
  generalize loopM (mpcStep lin P plant dt simDt cfg scr endT) _ = q
  cases q with
  | none => rfl
  | some r => cases r <;> rfl

/-- The members of the controller in new components. -/
def Relabel.ctrl (R : Relabel n) (c : SimCtrl n m ℝ) : SimCtrl n m ℝ :=
  { c with u := (R.U m).v c.u, K := (R.U m).m R.X c.K, planX := R.into c.planX, var := R.varL c.var, obj := R.obj c.obj }

/-- **C127** The timer callback of the FMPC simulation and the feedback it applies. -/
theorem C127_controller {P : ℝ → Callbacks n (fun _ : ℝ => m) (fun _ => p)} (R : Relabel n) (hL : lin.Equi (R.U m)) {ref ref' : ℝ}
    (hP : R.callbacks (P ref) = P ref') (t : ℝ) (x : Vec n ℝ) (c : SimCtrl n m ℝ) :
    timerCallback lin P dt cfg (fun k => R.scratch (scr k)) ref' t (R.into x) (R.ctrl c) =
        (timerCallback lin P dt cfg scr ref t x c).map R.ctrl ∧
      appliedInput (R.ctrl c) (R.into x) = (R.U m).v (appliedInput c x) := by
  constructor
  · unfold timerCallback
    have h := C127_relabel (P := P ref) (dt := dt) (cfg := cfg) (o := c.obj) (t0 := t) (sc := scr c.calls) (x0 := x) (init := c.var) R
      (fun _ _ => hL)
    rw [hP] at h
    dsimp only
    rw [show solve lin (P ref') dt cfg (R.ctrl c).obj t (R.scratch (scr (R.ctrl c).calls)) (R.into x) (R.ctrl c).var = _ from h]
    rcases hr : solve lin (P ref) dt cfg c.obj t (scr c.calls) x c.var with ⟨o1, e⟩
    cases e with
    | ok st =>
      have hK := R.firstGain_rel (fun _ _ => hL) hr
      rw [hP] at hK
      simp only [Res.bind_ok]
      rw [show firstGain lin (P ref') dt cfg (R.ctrl c).obj t (R.scratch (scr (R.ctrl c).calls)) (R.into x) (R.ctrl c).var = _ from hK]
      cases firstGain lin (P ref) dt cfg c.obj t (scr c.calls) x c.var with
      | ok K =>
        simp only [Res.map, Res.bind_ok]
        rw [show (R.obj o1).var.us[0]? = o1.var.us[0]?.map fun e => ⟨e.1, (R.U e.1).v e.2⟩ from List.getElem?_map,
          show (R.obj o1).var.xs[0]? = o1.var.xs[0]?.map R.into from List.getElem?_map]
        cases o1.var.us[(0 : ℕ)]? with
        | none => rfl
        | some e =>
          obtain ⟨k, u⟩ := e
          cases o1.var.xs[(0 : ℕ)]? with
          | none => rfl
          | some y =>
            dsimp only [Option.map]
            by_cases hk : k = m
            · subst hk
              rw [dif_pos rfl, dif_pos rfl]
              rfl
            · rw [dif_neg hk, dif_neg hk]; rfl
      | _ => rfl
    | _ => rfl
  · unfold appliedInput
    rw [show (R.ctrl c).first = c.first from rfl]
    split
    · rfl
    · show (R.U m).v c.u + FOps.mulVec ((R.U m).m R.X c.K) (R.into c.planX - R.into x) = _
      rw [R.into_sub, mulVec_real, SP.m_mulVec, ← SP.v_add, mulVec_real]

end Loops

end Nmpc.FMPC
