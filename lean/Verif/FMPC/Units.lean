import Verif.FMPC.Relabel
import Verif.FMPC.Kkt

/-!
# Changes of units and coordinates of FMPC problems

`x' = X x + b`, `u' = U u` with invertible matrices, constraints multiplied by positive numbers `D`, costs multiplied by `c > 0`.
Slacks become `D s`, multipliers `c D⁻¹ ν`, costates `c X⁻ᵀ λ`, the barrier parameter `c ε`.
-/

namespace Nmpc.FMPC

set_option linter.unusedSectionVars false

open Matrix
open DDP (FDeriv LDeriv VDeriv timeAt)

/-- An invertible change of coordinates of a space of dimension `k`, with the unit `c` of the cost. -/
structure Frame (c : ℝ) (k : ℕ) where
  M : Mat k k ℝ
  Mi : Mat k k ℝ
  inv : Mi * M = 1

namespace Frame
variable {c : ℝ} {k l r : ℕ} (g : Frame c k) (h : Frame c l) (e : Frame c r)

theorem inv' : g.M * g.Mi = 1 := mul_eq_one_comm.1 g.inv

theorem invT : g.Mᵀ * g.Miᵀ = 1 := by rw [← transpose_mul, g.inv, transpose_one]

theorem invT' : g.Miᵀ * g.Mᵀ = 1 := by rw [← transpose_mul, g.inv', transpose_one]

/-- A vector (state, input, slack) in new coordinates, and back. -/
def v (x : Vec k ℝ) : Vec k ℝ := g.M *ᵥ x
def vi (x : Vec k ℝ) : Vec k ℝ := g.Mi *ᵥ x

/-- A gradient (costate, multiplier) in new coordinates, and back. -/
noncomputable def w (y : Vec k ℝ) : Vec k ℝ := c • (g.Miᵀ *ᵥ y)
noncomputable def wi (y : Vec k ℝ) : Vec k ℝ := c⁻¹ • (g.Mᵀ *ᵥ y)

/-- A matrix that maps vectors to vectors, and back. -/
def vv (A : Mat k l ℝ) : Mat k l ℝ := g.M * A * h.Mi
def vvi (A : Mat k l ℝ) : Mat k l ℝ := g.Mi * A * h.M

/-- A matrix that maps vectors to gradients, and back. -/
noncomputable def wv (A : Mat k l ℝ) : Mat k l ℝ := c • (g.Miᵀ * A * h.Mi)
noncomputable def wvi (A : Mat k l ℝ) : Mat k l ℝ := c⁻¹ • (g.Mᵀ * A * h.M)

/-- A matrix that maps gradients to gradients. -/
def ww (A : Mat k l ℝ) : Mat k l ℝ := g.Miᵀ * A * h.Mᵀ

@[simp] theorem vi_v (x : Vec k ℝ) : g.vi (g.v x) = x := by rw [v, vi, mulVec_mulVec, g.inv, one_mulVec]

@[simp] theorem vvi_vv (A : Mat k l ℝ) : g.vvi h (g.vv h A) = A := by
  unfold vv vvi
  rw [Matrix.mul_assoc g.M, ← Matrix.mul_assoc g.Mi, g.inv, Matrix.one_mul, Matrix.mul_assoc, h.inv, Matrix.mul_one]

theorem wi_w (hc : c ≠ 0) (x : Vec k ℝ) : g.wi (g.w x) = x := by
  rw [w, wi, mulVec_smul, mulVec_mulVec, g.invT, one_mulVec, smul_smul, inv_mul_cancel₀ hc, one_smul]

theorem wvi_wv (hc : c ≠ 0) (A : Mat k l ℝ) : g.wvi h (g.wv h A) = A := by
  unfold wv wvi
  rw [Matrix.mul_smul, Matrix.smul_mul, smul_smul, inv_mul_cancel₀ hc, one_smul, Matrix.mul_assoc g.Miᵀ, ← Matrix.mul_assoc g.Mᵀ,
    g.invT, Matrix.one_mul, Matrix.mul_assoc, h.inv, Matrix.mul_one]

theorem v_zero : g.v 0 = 0 := mulVec_zero _
theorem v_add (x y : Vec k ℝ) : g.v (x + y) = g.v x + g.v y := mulVec_add _ _ _
theorem v_sub (x y : Vec k ℝ) : g.v (x - y) = g.v x - g.v y := mulVec_sub _ _ _
theorem v_smul (a : ℝ) (x : Vec k ℝ) : g.v (a • x) = a • g.v x := mulVec_smul _ _ _
theorem w_zero : g.w 0 = 0 := by rw [w, mulVec_zero, smul_zero]
theorem w_add (x y : Vec k ℝ) : g.w (x + y) = g.w x + g.w y := by rw [w, mulVec_add, smul_add]; rfl
theorem w_sub (x y : Vec k ℝ) : g.w (x - y) = g.w x - g.w y := by rw [w, mulVec_sub, smul_sub]; rfl
theorem w_smul (a : ℝ) (x : Vec k ℝ) : g.w (a • x) = a • g.w x := by rw [w, mulVec_smul, smul_comm]; rfl
theorem vv_smul (a : ℝ) (A : Mat k l ℝ) : g.vv h (a • A) = a • g.vv h A := by rw [vv, Matrix.mul_smul, Matrix.smul_mul]; rfl
theorem wv_add (A B : Mat k l ℝ) : g.wv h (A + B) = g.wv h A + g.wv h B := by
  rw [wv, Matrix.mul_add, Matrix.add_mul, smul_add]; rfl
theorem wv_sub (A B : Mat k l ℝ) : g.wv h (A - B) = g.wv h A - g.wv h B := by
  rw [wv, Matrix.mul_sub, Matrix.sub_mul, smul_sub]; rfl
theorem wv_smul (a : ℝ) (A : Mat k l ℝ) : g.wv h (a • A) = a • g.wv h A := by
  rw [wv, Matrix.mul_smul, Matrix.smul_mul, smul_comm]; rfl

theorem vv_tr (A : Mat k l ℝ) : (g.vv h A)ᵀ = h.ww g Aᵀ := by
  rw [vv, ww, transpose_mul, transpose_mul, Matrix.mul_assoc]

theorem wv_tr (A : Mat k l ℝ) : (g.wv h A)ᵀ = h.wv g Aᵀ := by
  rw [wv, wv, transpose_smul, transpose_mul, transpose_mul, transpose_transpose, Matrix.mul_assoc]

theorem vv_v (A : Mat k l ℝ) (x : Vec l ℝ) : g.vv h A *ᵥ h.v x = g.v (A *ᵥ x) := by
  rw [vv, v, v, mulVec_mulVec, Matrix.mul_assoc, h.inv, Matrix.mul_one, mulVec_mulVec]

theorem wv_v (A : Mat k l ℝ) (x : Vec l ℝ) : g.wv h A *ᵥ h.v x = g.w (A *ᵥ x) := by
  rw [wv, v, w, smul_mulVec, mulVec_mulVec, Matrix.mul_assoc, h.inv, Matrix.mul_one, mulVec_mulVec]

theorem ww_w (A : Mat k l ℝ) (x : Vec l ℝ) : g.ww h A *ᵥ h.w x = g.w (A *ᵥ x) := by
  rw [ww, w, w, mulVec_smul, mulVec_mulVec, Matrix.mul_assoc, h.invT, Matrix.mul_one, mulVec_mulVec]

theorem ww_wv (A : Mat k l ℝ) (B : Mat l r ℝ) : g.ww h A * h.wv e B = g.wv e (A * B) := by
  rw [ww, wv, wv, Matrix.mul_smul, Matrix.mul_assoc h.Miᵀ, Matrix.mul_assoc, ← Matrix.mul_assoc h.Mᵀ, h.invT, Matrix.one_mul]
  simp only [Matrix.mul_assoc]

theorem wv_vv (A : Mat k l ℝ) (B : Mat l r ℝ) : g.wv h A * h.vv e B = g.wv e (A * B) := by
  rw [vv, wv, wv, Matrix.smul_mul, Matrix.mul_assoc h.M, Matrix.mul_assoc _ h.Mi, ← Matrix.mul_assoc h.Mi, h.inv, Matrix.one_mul]
  simp only [Matrix.mul_assoc]

end Frame

/-- A change of units and coordinates. -/
structure Units (n : ℕ) where
  c : ℝ
  pos : 0 < c
  X : Frame c n
  b : Vec n ℝ
  U : (k : ℕ) → Frame c k
  D : (k : ℕ) → Vec k ℝ
  hD : ∀ k j, 0 < D k j

/-- What is needed of the factorisations: success and solutions do not depend on the units, and solutions are linear in the right-hand
side. -/
structure GainSolver.Fits (L : GainSolver ℝ) {c : ℝ} {k : ℕ} (h : Frame c k) : Prop where
  ok : ∀ M : Mat k k ℝ, L.ok (h.wv h M) = L.ok M
  ldlt : ∀ (M : Mat k k ℝ) (b : Vec k ℝ), L.ok M = true → L.ldlt (h.wv h M) (h.w b) = h.v (L.ldlt M b)
  lu : ∀ (M : Mat k k ℝ) (b : Vec k ℝ), L.ok M = false → L.lu (h.wv h M) (h.w b) = h.v (L.lu M b)
  ldlt_lin : ∀ M : Mat k k ℝ, L.ok M = true → ∃ T : Mat k k ℝ, ∀ b, L.ldlt M b = T *ᵥ b
  lu_lin : ∀ M : Mat k k ℝ, L.ok M = false → ∃ T : Mat k k ℝ, ∀ b, L.lu M b = T *ᵥ b

namespace Units
variable {n : ℕ} {m p : ℕ → ℕ} (R : Units n)

theorem c_ne : R.c ≠ 0 := R.pos.ne'

theorem D_ne (k : ℕ) (j : Fin k) : R.D k j ≠ 0 := (R.hD k j).ne'

/-- The units of the constraints. -/
noncomputable def G (k : ℕ) : Frame R.c k where
  M := diagonal (R.D k)
  Mi := diagonal fun j => (R.D k j)⁻¹
  inv := by
    rw [diagonal_mul_diagonal, ← diagonal_one]
    congr 1
    funext j
    exact inv_mul_cancel₀ (R.D_ne k j)

theorem G_v {k : ℕ} (x : Vec k ℝ) (j : Fin k) : (R.G k).v x j = R.D k j * x j := by
  rw [Frame.v, G, mulVec_diagonal]

theorem G_w {k : ℕ} (x : Vec k ℝ) (j : Fin k) : (R.G k).w x j = R.c * ((R.D k j)⁻¹ * x j) := by
  rw [Frame.w, G, diagonal_transpose, Pi.smul_apply, mulVec_diagonal, smul_eq_mul]

def into (x : Vec n ℝ) : Vec n ℝ := R.X.v x + R.b

def back (y : Vec n ℝ) : Vec n ℝ := R.X.vi (y - R.b)

@[simp] theorem back_into (x : Vec n ℝ) : R.back (R.into x) = x := by
  rw [back, into, add_sub_cancel_right, Frame.vi_v]

section Parts
variable {m p : ℕ}

def F (d : FDeriv n m ℝ) : FDeriv n m ℝ := ⟨R.X.vv R.X d.Fx, R.X.vv (R.U m) d.Fu⟩
def Fi (d : FDeriv n m ℝ) : FDeriv n m ℝ := ⟨R.X.vvi R.X d.Fx, R.X.vvi (R.U m) d.Fu⟩
noncomputable def J (d : GDeriv n m p ℝ) : GDeriv n m p ℝ := ⟨(R.G p).vv R.X d.C, (R.G p).vv (R.U m) d.D⟩
noncomputable def Ji (d : GDeriv n m p ℝ) : GDeriv n m p ℝ := ⟨(R.G p).vvi R.X d.C, (R.G p).vvi (R.U m) d.D⟩
noncomputable def L (d : LDeriv n m ℝ) : LDeriv n m ℝ :=
  ⟨R.X.w d.Lx, (R.U m).w d.Lu, R.X.wv R.X d.Lxx, (R.U m).wv (R.U m) d.Luu, R.X.wv (R.U m) d.Lxu⟩
noncomputable def Li (d : LDeriv n m ℝ) : LDeriv n m ℝ :=
  ⟨R.X.wi d.Lx, (R.U m).wi d.Lu, R.X.wvi R.X d.Lxx, (R.U m).wvi (R.U m) d.Luu, R.X.wvi (R.U m) d.Lxu⟩
noncomputable def V (d : VDeriv n ℝ) : VDeriv n ℝ := ⟨R.X.w d.Vx, R.X.wv R.X d.Vxx⟩
noncomputable def Vi (d : VDeriv n ℝ) : VDeriv n ℝ := ⟨R.X.wi d.Vx, R.X.wvi R.X d.Vxx⟩

@[simp] theorem Fi_F (d : FDeriv n m ℝ) : R.Fi (R.F d) = d := by simp [F, Fi]
@[simp] theorem Ji_J (d : GDeriv n m p ℝ) : R.Ji (R.J d) = d := by simp [J, Ji]
@[simp] theorem Li_L (d : LDeriv n m ℝ) : R.Li (R.L d) = d := by simp [L, Li, Frame.wi_w _ R.c_ne, Frame.wvi_wv _ _ R.c_ne]
@[simp] theorem Vi_V (d : VDeriv n ℝ) : R.Vi (R.V d) = d := by simp [V, Vi, Frame.wi_w _ R.c_ne, Frame.wvi_wv _ _ R.c_ne]

noncomputable def coeff (c : Coeff n m p ℝ) : Coeff n m p ℝ where
  F := R.F c.F
  G := R.J c.G
  L := R.L c.L
  xbar := R.X.v c.xbar
  gbar := (R.G p).v c.gbar
  Lxbar := R.X.w c.Lxbar
  Lubar := (R.U m).w c.Lubar
  k := (R.U m).v c.k
  K := (R.U m).vv R.X c.K
  s := R.X.w c.s
  P := R.X.wv R.X c.P

noncomputable def term (c : TCoeff n ℝ) : TCoeff n ℝ where
  V := R.V c.V
  Lxbar := R.X.w c.Lxbar
  s := R.X.w c.s
  P := R.X.wv R.X c.P
  unset := c.unset

noncomputable def gain (q : GainData n m ℝ) : GainData n m ℝ where
  F := R.X.wv R.X q.F
  H := R.X.wv (R.U m) q.H
  G := (R.U m).wv (R.U m) q.G
  Lx := R.X.w q.Lx
  Lu := (R.U m).w q.Lu

end Parts

/-- The problem in new units. -/
noncomputable def stages (S : Stages n m p ℝ) : Stages n m p ℝ where
  dt := S.dt
  f i y u := R.into (S.f i (R.back y) ((R.U (m i)).vi u))
  l i y u := R.c * S.l i (R.back y) ((R.U (m i)).vi u)
  φ y := R.c * S.φ (R.back y)
  g i y u := (R.G (p i)).v (S.g i (R.back y) ((R.U (m i)).vi u))
  df i y u d := R.F (S.df i (R.back y) ((R.U (m i)).vi u) (R.Fi d))
  dg i y u d := R.J (S.dg i (R.back y) ((R.U (m i)).vi u) (R.Ji d))
  dl i y u d := R.L (S.dl i (R.back y) ((R.U (m i)).vi u) (R.Li d))
  dφ y d := R.V (S.dφ (R.back y) (R.Vi d))

theorem stages_overwrites {S : Stages n m p ℝ} (h : S.Overwrites) : (R.stages S).Overwrites where
  df _ _ _ _ _ := by simp only [stages]; rw [h.df]
  dg _ _ _ _ _ := by simp only [stages]; rw [h.dg]
  dl _ _ _ _ _ := by simp only [stages]; rw [h.dl]
  dφ _ _ _ := by simp only [stages]; rw [h.dφ]

/-- Variables in new units; the list of states has `N + 1` entries. -/
noncomputable def var (N : ℕ) (v : Var n m p ℝ) : Var n m p ℝ where
  x i := if i ≤ N then R.into (v.x i) else R.X.v (v.x i)
  u i := (R.U (m i)).v (v.u i)
  lam i := R.X.w (v.lam i)
  s i := (R.G (p i)).v (v.s i)
  nu i := (R.G (p i)).w (v.nu i)

/-- Directions in new units. -/
noncomputable def dir (v : Var n m p ℝ) : Var n m p ℝ where
  x i := R.X.v (v.x i)
  u i := (R.U (m i)).v (v.u i)
  lam i := R.X.w (v.lam i)
  s i := (R.G (p i)).v (v.s i)
  nu i := (R.G (p i)).w (v.nu i)

/-- The solver in new units, with another trace: the KKT error depends on the units. -/
noncomputable def solver (N : ℕ) (tr : List (Trace ℝ)) (w : Solver n m p ℝ) : Solver n m p ℝ :=
  { w with var := R.var N w.var, delta := R.dir w.delta, coeff := fun i => R.coeff (w.coeff i), term := R.term w.term,
           eps := R.c * w.eps, trace := tr }

theorem into_sub (x y : Vec n ℝ) : R.into x - R.into y = R.X.v (x - y) := by
  rw [into, into, add_sub_add_right_eq_sub, Frame.v_sub]

variable {lin : GainSolver ℝ} {cfg : Config ℝ} {N : ℕ} {S : Stages n m p ℝ} {x0 : Vec n ℝ} {tr : List (Trace ℝ)}

theorem var_x {i : ℕ} (h : i ≤ N) (v : Var n m p ℝ) : (R.var N v).x i = R.into (v.x i) := if_pos h

theorem dot_svw {k : ℕ} (g : Frame R.c k) (x y : Vec k ℝ) : g.v x ⬝ᵥ g.w y = R.c * (x ⬝ᵥ y) := by
  rw [Frame.v, Frame.w, dotProduct_smul, dotProduct_mulVec, vecMul_transpose, mulVec_mulVec, g.inv, one_mulVec, smul_eq_mul]

/-- The barrier update only commutes with changes of units that leave the cost alone. -/
theorem updateEps_units (hc : R.c = 1) (v : Var n m p ℝ) : updateEps N (R.var N v) = updateEps N v := by
  unfold updateEps
  have : ∀ i, FOps.dot ((R.var N v).s i) ((R.var N v).nu i) = FOps.dot (v.s i) (v.nu i) := fun i =>
    (R.dot_svw (R.G (p i)) _ _).trans (by rw [hc, one_mul]; rfl)
  simp only [this]

theorem calcCoeff_units (v : Var n m p ℝ) {i : ℕ} (hi : i < N) (c : Coeff n (m i) (p i) ℝ) :
    calcCoeff (R.stages S) (R.var N v) i (R.coeff c) = R.coeff (calcCoeff S v i c) := by
  unfold calcCoeff
  dsimp only
  rw [R.var_x hi.le, R.var_x (show i + 1 ≤ N from hi)]
  unfold coeff stages var
  simp only [back_into, Frame.vi_v, Fi_F, Ji_J, Li_L, into_sub, mulVec_real, smulv_real]
  unfold F J L
  simp only [Frame.vv_tr, Frame.ww_w, ← Frame.v_add, ← Frame.w_add, ← Frame.w_smul]

theorem calcTerm_units (v : Var n m p ℝ) (c : TCoeff n ℝ) :
    calcTerm N (R.stages S) (R.var N v) (R.term c) = R.term (calcTerm N S v c) := by
  unfold calcTerm
  dsimp only
  rw [R.var_x le_rfl]
  unfold term stages var
  simp only [back_into, Vi_V]
  unfold V
  simp only [← Frame.w_sub]

theorem prepare_units (hu : cfg.updateBarrierEps = false ∨ R.c = 1) (w : Solver n m p ℝ) :
    prepare N cfg (R.stages S) (R.solver N tr w) = (prepare N cfg S w).map (R.solver N tr) := by
  unfold prepare
  have he : (if cfg.updateBarrierEps = true then updateEps N (R.solver N tr w).var else Res.ok (R.solver N tr w).eps) =
      (if cfg.updateBarrierEps = true then updateEps N w.var else Res.ok w.eps).map fun e => R.c * e := by
    rcases hu with hu | hu
    · rw [hu]; rfl
    · split
      · rw [show (R.solver N tr w).var = R.var N w.var from rfl, R.updateEps_units hu, hu]
        cases updateEps N w.var with
        | ok e => simp [Res.map, Res.bind]
        | _ => rfl
      · rfl
  rw [he]
  generalize (if cfg.updateBarrierEps = true then updateEps N w.var else Res.ok w.eps) = e
  cases e with
  | ok e =>
    show Res.ok _ = Res.ok _
    congr 1
    unfold solver
    dsimp only
    congr 1
    · funext i
      split
      · exact R.calcCoeff_units _ (by assumption) _
      · rfl
    · exact R.calcTerm_units _ _
  | _ => rfl

section Stage
variable {m p : ℕ}

theorem nuS_units (s nu : Vec p ℝ) (j : Fin p) :
    nuS ((R.G p).v s) ((R.G p).w nu) j = R.c * ((R.D p j)⁻¹ * (R.D p j)⁻¹ * nuS s nu j) := by
  simp only [nuS, R.G_v, R.G_w, div_eq_mul_inv, mul_inv]
  ring

theorem tildeSub_units (eps : ℝ) (s nu gb : Vec p ℝ) :
    tildeSub (R.c * eps) ((R.G p).v s) ((R.G p).w nu) ((R.G p).v gb) = (R.G p).w (tildeSub eps s nu gb) := by
  funext j
  simp only [tildeSub, nuS_units, R.G_w]
  simp only [R.G_v, one_div, mul_inv]
  have h := mul_inv_cancel₀ (R.D_ne p j)
  linear_combination R.c * (R.D p j)⁻¹ * nuS s nu j * gb j * h

theorem mulDiag_units {k : ℕ} (h : Frame R.c k) (A : Mat k p ℝ) (s nu : Vec p ℝ) :
    mulDiag (h.ww (R.G p) A) (nuS ((R.G p).v s) ((R.G p).w nu)) = h.wv (R.G p) (mulDiag A (nuS s nu)) := by
  have e1 : ∀ (B : Mat k p ℝ) (d : Vec p ℝ), mulDiag B d = B * diagonal d := by
    intro B d; funext i j; rw [mul_diagonal]; rfl
  rw [e1 A, Frame.wv, ← Matrix.mul_assoc]
  funext i j
  have e2 : (h.ww (R.G p) A) i j = (h.Miᵀ * A) i j * R.D p j := by
    rw [Frame.ww, G, diagonal_transpose, mul_diagonal]
  rw [mulDiag, nuS_units, e2, Matrix.smul_apply, G, mul_diagonal, mul_diagonal, smul_eq_mul]
  have hd := mul_inv_cancel₀ (R.D_ne p j)
  generalize (h.Miᵀ * A) i j = z
  linear_combination R.c * (R.D p j)⁻¹ * nuS s nu j * z * hd

theorem gainData_units (dt eps : ℝ) (s nu : Vec p ℝ) (c : Coeff n m p ℝ) (P : Mat n n ℝ) :
    gainData dt (R.c * eps) ((R.G p).v s) ((R.G p).w nu) (R.coeff c) (R.X.wv R.X P) = R.gain (gainData dt eps s nu c P) := by
  unfold gainData gain coeff
  dsimp only
  rw [tildeSub_units]
  unfold F J L
  simp only [mulVec_real, matMul_real, smulm_real, Frame.vv_tr, Frame.ww_w, mulDiag_units, Frame.ww_wv, Frame.wv_vv, ← Frame.w_add,
    ← Frame.wv_smul, ← Frame.wv_add]

theorem solveCols_units {k : ℕ} (h : Frame R.c k) {slv slv' : Vec k ℝ → Vec k ℝ} (h1 : ∀ b, slv' (h.w b) = h.v (slv b))
    {T : Mat k k ℝ} (h2 : ∀ b, slv b = T *ᵥ b) (A : Mat k n ℝ) : solveCols slv' (h.wv R.X A) = h.vv R.X (solveCols slv A) := by
  have e1 : ∀ B : Mat k n ℝ, solveCols slv B = T * B := by
    intro B
    funext i j
    rw [solveCols, h2, mul_apply]
    rfl
  rw [e1]
  funext i j
  unfold solveCols
  have hc : (fun r => h.wv R.X A r j) = h.w (A *ᵥ fun s => R.X.Mi s j) := by
    funext r
    rw [Frame.wv, Frame.w, mulVec_mulVec]
    rfl
  rw [hc, h1, h2, Frame.vv, Frame.v, mulVec_mulVec, mulVec_mulVec, ← Matrix.mul_assoc]
  rfl

theorem solveGains_units (hL : lin.Fits (R.U m)) (q : GainData n m ℝ) (Fu : Mat n m ℝ) (xbar s : Vec n ℝ) (P : Mat n n ℝ) :
    solveGains lin cfg (R.gain q) (R.X.vv (R.U m) Fu) (R.X.v xbar) (R.X.w s) (R.X.wv R.X P) =
      (solveGains lin cfg q Fu xbar s P).map fun r => ((R.U m).v r.1, (R.U m).vv R.X r.2) := by
  unfold solveGains gain
  simp only [mulVec_real, smulv_real, smulm_real, Frame.vv_tr, Frame.wv_tr, Frame.ww_w, Frame.wv_v, ← Frame.w_sub, ← Frame.w_add, hL.ok]
  split
  · split
    · rename_i hok
      obtain ⟨T, hT⟩ := hL.ldlt_lin q.G hok
      rw [hL.ldlt _ _ hok, R.solveCols_units (R.U m) (fun b => hL.ldlt q.G b hok) hT, ← Frame.v_smul, ← Frame.vv_smul]
      rfl
    · rename_i hok
      rw [Bool.not_eq_true] at hok
      split
      · rfl
      · obtain ⟨T, hT⟩ := hL.lu_lin q.G hok
        rw [hL.lu _ _ hok, R.solveCols_units (R.U m) (fun b => hL.lu q.G b hok) hT, ← Frame.v_smul, ← Frame.vv_smul]
        rfl
  · show some _ = some _
    congr 2
    · exact (Frame.v_zero _).symm
    · have : (R.U m).vv R.X 0 = 0 := by rw [Frame.vv, Matrix.mul_zero, Matrix.zero_mul]
      exact this.symm

theorem bwStage_units (hL : lin.Fits (R.U m)) (dt eps : ℝ) (sl nu : Vec p ℝ) (c : Coeff n m p ℝ) (s : Vec n ℝ) (P : Mat n n ℝ) :
    bwStage lin cfg dt (R.c * eps) ((R.G p).v sl) ((R.G p).w nu) (R.coeff c) (R.X.w s) (R.X.wv R.X P) =
      (bwStage lin cfg dt eps sl nu c s P).map R.coeff := by
  unfold bwStage
  dsimp only
  rw [gainData_units]
  have := R.solveGains_units (cfg := cfg) hL (gainData dt eps sl nu c P) c.F.Fu c.xbar s P
  rw [show (R.coeff c).F.Fu = R.X.vv (R.U m) c.F.Fu from rfl, show (R.coeff c).xbar = R.X.v c.xbar from rfl, this]
  cases solveGains lin cfg (gainData dt eps sl nu c P) c.F.Fu c.xbar s P with
  | none => rfl
  | some r =>
    obtain ⟨k, K⟩ := r
    show some _ = some _
    congr 1
    unfold coeff F gain
    simp only [mulVec_real, matMul_real, smulm_real, Frame.vv_tr, Frame.wv_tr, Frame.ww_w, Frame.wv_v, Frame.ww_wv, Frame.wv_vv,
      ← Frame.w_sub, ← Frame.wv_sub, ← Frame.wv_add, ← Frame.wv_smul]

end Stage

theorem bwLoop_units (hL : ∀ i < N, lin.Fits (R.U (m i))) (dt eps : ℝ) (v : Var n m p ℝ) (i : ℕ) (hi : i ≤ N) (s : Vec n ℝ)
    (P : Mat n n ℝ) (co : (i : ℕ) → Coeff n (m i) (p i) ℝ) :
    bwLoop lin cfg dt (R.c * eps) (R.var N v) i (R.X.w s) (R.X.wv R.X P) (fun i => R.coeff (co i)) =
      ((bwLoop lin cfg dt eps v i s P co).1, fun j => R.coeff ((bwLoop lin cfg dt eps v i s P co).2 j)) := by
  induction i generalizing s P co with
  | zero => rfl
  | succ i ih =>
    unfold bwLoop
    have h := R.bwStage_units (cfg := cfg) (hL i (by omega)) dt eps (v.s i) (v.nu i) (co i) s P
    rw [show (R.var N v).s i = (R.G (p i)).v (v.s i) from rfl, show (R.var N v).nu i = (R.G (p i)).w (v.nu i) from rfl, h]
    cases bwStage lin cfg dt eps (v.s i) (v.nu i) (co i) s P with
    | none => rfl
    | some c =>
      show bwLoop lin cfg dt (R.c * eps) (R.var N v) i (R.X.w c.s) (R.X.wv R.X c.P)
        (Function.update (fun i => R.coeff (co i)) i (R.coeff c)) = _
      have hu : Function.update (fun i => R.coeff (co i)) i (R.coeff c) = fun j => R.coeff (Function.update co i c j) := by
        funext j
        by_cases hj : j = i
        · subst hj; simp
        · simp [hj]
      rw [hu]
      exact ih (by omega) _ _ _

theorem backwardPass_units (hL : ∀ i < N, lin.Fits (R.U (m i))) (w : Solver n m p ℝ) :
    backwardPass lin N cfg (R.stages S) (R.solver N tr w) =
      ((backwardPass lin N cfg S w).1, R.solver N tr (backwardPass lin N cfg S w).2) := by
  unfold backwardPass
  have h := R.bwLoop_units (cfg := cfg) hL S.dt w.eps w.var N le_rfl ((-1 : ℝ) • w.term.Lxbar) w.term.V.Vxx w.coeff
  simp only [Frame.w_smul] at h
  have hany : ∀ l : List ℕ, (l.any fun _ => false) = false := fun l => by induction l <;> simp_all
  simp only [Relabel.coeffNaN, Relabel.termNaN, hany, Bool.or_self, Bool.and_false, Bool.false_eq_true, if_false, smulv_real]
  rw [show bwLoop lin cfg (R.stages S).dt (R.solver N tr w).eps (R.solver N tr w).var N ((-1 : ℝ) • (R.solver N tr w).term.Lxbar)
    (R.solver N tr w).term.V.Vxx (R.solver N tr w).coeff = _ from h]
  dsimp only
  split <;> (unfold solver term; simp only [Frame.w_smul]; rfl)

theorem deltaX_units (co : (i : ℕ) → Coeff n (m i) (p i) ℝ) (dx : Vec n ℝ) (i : ℕ) :
    deltaX (fun i => R.coeff (co i)) (R.X.v dx) i = R.X.v (deltaX co dx i) := by
  induction i with
  | zero => rfl
  | succ i ih =>
    simp only [deltaX]
    rw [ih]
    unfold coeff F
    simp only [mulVec_real, Frame.vv_v, ← Frame.v_add]

theorem forwardDelta_units (eps : ℝ) (v : Var n m p ℝ) (co : (i : ℕ) → Coeff n (m i) (p i) ℝ) (t : TCoeff n ℝ) :
    forwardDelta N (R.c * eps) (R.into x0) (R.var N v) (fun i => R.coeff (co i)) (R.term t) = R.dir (forwardDelta N eps x0 v co t) := by
  unfold forwardDelta
  dsimp only
  rw [R.var_x (Nat.zero_le _), into_sub]
  simp only [deltaX_units]
  unfold dir coeff J term
  simp only [mulVec_real, smulv_real, Frame.vv_v, Frame.wv_v, ← Frame.v_add, ← Frame.w_sub, ← Frame.v_smul]
  congr 1
  · funext i
    exact R.deltaX_units co _ i
  · funext i
    split <;> rfl
  · funext i j
    simp only [R.G_v, R.G_w, var, div_eq_mul_inv, mul_inv]
    have h := mul_inv_cancel₀ (R.D_ne (p i) j)
    generalize ((-1 : ℝ) • ((co i).G.C *ᵥ deltaX co (x0 - v.x 0) i + (co i).G.D *ᵥ ((co i).K *ᵥ deltaX co (x0 - v.x 0) i + (co i).k) +
      (co i).gbar)) j = z
    linear_combination (-R.c * (R.D (p i) j)⁻¹ * (v.s i j)⁻¹ * v.nu i j * (z + v.s i j)) * h

theorem forwardPass_units (w : Solver n m p ℝ) :
    forwardPass N cfg (R.into x0) (R.solver N tr w) = ((forwardPass N cfg x0 w).1, R.solver N tr (forwardPass N cfg x0 w).2) := by
  unfold forwardPass
  simp only [Relabel.varNaN, Bool.and_false, Bool.not_false]
  unfold solver
  dsimp only
  rw [R.forwardDelta_units]

theorem alphaMax_scale (a : (i : ℕ) → Vec (p i) ℝ) (ha : ∀ i j, 0 < a i j) (v dv : (i : ℕ) → Vec (p i) ℝ) :
    alphaMax N (fun i j => a i j * v i j) (fun i j => a i j * dv i j) = alphaMax N v dv := by
  unfold alphaMax
  refine forUp_congr fun i _ z => ?_
  congr 1
  funext z j
  have h1 : ltb (a i j * dv i j) 0 = ltb (dv i j) 0 := by
    rw [Bool.eq_iff_iff, ltb_real, ltb_real]
    exact ⟨fun h => by by_contra hh; exact absurd h (not_lt.2 (mul_nonneg (ha i j).le (not_lt.1 hh))), fun h => mul_neg_of_pos_of_neg (ha i j) h⟩
  have h2 : -1 * lit (995 / 1000) * (a i j * v i j) / (a i j * dv i j) = -1 * lit (995 / 1000) * v i j / dv i j := by
    rw [mul_left_comm, mul_div_mul_left _ _ (ha i j).ne']
  rw [h1, h2]

theorem alphaMax_s (v dv : (i : ℕ) → Vec (p i) ℝ) :
    alphaMax N (fun i => (R.G (p i)).v (v i)) (fun i => (R.G (p i)).v (dv i)) = alphaMax N v dv := by
  have := alphaMax_scale (N := N) (fun i j => R.D (p i) j) (fun i j => R.hD _ j) v dv
  rw [← this]
  congr 1 <;> (funext i j; exact R.G_v _ _)

theorem alphaMax_nu (v dv : (i : ℕ) → Vec (p i) ℝ) :
    alphaMax N (fun i => (R.G (p i)).w (v i)) (fun i => (R.G (p i)).w (dv i)) = alphaMax N v dv := by
  have := alphaMax_scale (N := N) (fun i j => R.c * (R.D (p i) j)⁻¹) (fun i j => mul_pos R.pos (inv_pos.2 (R.hD _ j))) v dv
  rw [← this]
  congr 1 <;> (funext i j; rw [R.G_w, mul_assoc])

theorem into_add (x y : Vec n ℝ) (a : ℝ) : R.into x + smulv a (R.X.v y) = R.into (x + smulv a y) := by
  rw [into, into, smulv_real, smulv_real, Frame.v_add, Frame.v_smul]; abel

/-- A step whose slacks and multipliers stay positive. -/
theorem applyStep_units (v d : Var n m p ℝ) (a b : ℝ) (hs : ∀ i < N, ∀ j, 0 < (v.s i + smulv a (d.s i)) j)
    (hn : ∀ i < N, ∀ j, 0 < (v.nu i + smulv b (d.nu i)) j) :
    VEq N (applyStep (R.var N v) (R.dir d) a b) (R.var N (applyStep v d a b)) := by
  refine ⟨?_, ?_, ?_, ?_, ?_⟩
  · intro i hi
    simp only [applyStep, var, dir, if_pos hi]
    exact R.into_add _ _ _
  · intro i _
    simp only [applyStep, var, dir, smulv_real, Frame.v_add, Frame.v_smul]
  · intro i _
    simp only [applyStep, var, dir, smulv_real, Frame.w_add, Frame.w_smul]
  · intro i hi
    have h : ∀ j, 0 < (R.G (p i)).v (v.s i + smulv a (d.s i)) j := fun j => by
      rw [R.G_v]; exact mul_pos (R.hD _ j) (hs i hi j)
    simp only [applyStep, var, dir]
    rw [repair_of_pos _ (hs i hi), smulv_real, smulv_real, ← Frame.v_smul, ← Frame.v_add]
    exact repair_of_pos _ (by rw [smulv_real] at h; exact h)
  · intro i hi
    have h : ∀ j, 0 < (R.G (p i)).w (v.nu i + smulv b (d.nu i)) j := fun j => by
      rw [R.G_w]; exact mul_pos R.pos (mul_pos (inv_pos.2 (R.hD _ j)) (hn i hi j))
    simp only [applyStep, var, dir]
    rw [repair_of_pos _ (hn i hi), smulv_real, smulv_real, ← Frame.w_smul, ← Frame.w_add]
    exact repair_of_pos _ (by rw [smulv_real] at h; exact h)

theorem updateVariables_units (hls : cfg.enableLineSearch = false) (w : Solver n m p ℝ) (hw : w.var.Pos N) :
    ∃ w1 w2, updateVariables N cfg S x0 w = .ok (true, w1) ∧
      updateVariables N cfg (R.stages S) (R.into x0) (R.solver N tr w) = .ok (true, w2) ∧ WEq N cfg w2 (R.solver N tr w1) ∧
      w1.trace = w.trace := by
  obtain ⟨s1, s2, s3⟩ := alphaMax_spec w.var.s w.delta.s hw.1
  obtain ⟨n1, n2, n3⟩ := alphaMax_spec w.var.nu w.delta.nu hw.2
  have hok : alphaOk (alphaMax N w.var.s w.delta.s) (alphaMax N w.var.nu w.delta.nu) = true := by
    unfold alphaOk
    simp only [Bool.and_eq_true, ltb_real, leb_real]
    exact ⟨⟨⟨s1, s2⟩, n1⟩, n2⟩
  unfold updateVariables
  dsimp only
  rw [show alphaMax N (R.solver N tr w).var.s (R.solver N tr w).delta.s = alphaMax N w.var.s w.delta.s from R.alphaMax_s _ _,
    show alphaMax N (R.solver N tr w).var.nu (R.solver N tr w).delta.nu = alphaMax N w.var.nu w.delta.nu from R.alphaMax_nu _ _,
    if_pos hok, if_pos hok]
  unfold lineSearch
  rw [hls]
  refine ⟨_, _, rfl, rfl, ⟨?_, rfl, .inr rfl, .inr rfl⟩, rfl⟩
  exact R.applyStep_units w.var w.delta _ _ (fun i hi j => step_pos (hw.1 i hi j) s1 le_rfl (s3 i hi j))
    (fun i hi j => step_pos (hw.2 i hi j) n1 le_rfl (n3 i hi j))

/-! ## The KKT error -/

/-- Changes of coordinates that keep lengths, with the same units of cost and constraints. -/
structure Isometric : Prop where
  c : R.c = 1
  X : R.X.Mᵀ * R.X.M = 1
  U : ∀ k, (R.U k).Mᵀ * (R.U k).M = 1
  D : ∀ k j, R.D k j = 1

theorem sq_v {k : ℕ} {g : Frame R.c k} (h : g.Mᵀ * g.M = 1) (x : Vec k ℝ) : sqNorm (g.v x) = sqNorm x := by
  rw [sqNorm_real, sqNorm_real, Frame.v, dotProduct_mulVec, vecMul_mulVec, h, vecMul_one]

theorem sq_w {k : ℕ} {g : Frame R.c k} (hc : R.c = 1) (h : g.Mᵀ * g.M = 1) (x : Vec k ℝ) : sqNorm (g.w x) = sqNorm x := by
  have h1 : g.Miᵀ = g.M := by
    have h2 : g.M * g.Mᵀ = 1 := mul_eq_one_comm.1 h
    calc g.Miᵀ = g.M * g.Mᵀ * g.Miᵀ := by rw [h2, Matrix.one_mul]
      _ = g.M := by rw [Matrix.mul_assoc, g.invT, Matrix.mul_one]
  rw [sqNorm_real, sqNorm_real, Frame.w, h1, smul_dotProduct, dotProduct_smul, dotProduct_mulVec, vecMul_mulVec, h, vecMul_one, smul_eq_mul,
    smul_eq_mul, ← mul_assoc, show R.c * R.c = 1 by rw [hc, one_mul], one_mul]

theorem sq_zero {k : ℕ} {x : Vec k ℝ} : sqNorm x = 0 ↔ x = 0 := by
  rw [sqNorm_real, dotProduct_self_eq_zero]

theorem v_eq_zero {k : ℕ} (g : Frame R.c k) (x : Vec k ℝ) : g.v x = 0 ↔ x = 0 :=
  ⟨fun h => by rw [← g.vi_v x, h]; exact mulVec_zero _, fun h => by rw [h, Frame.v_zero]⟩

theorem w_eq_zero {k : ℕ} (g : Frame R.c k) (x : Vec k ℝ) : g.w x = 0 ↔ x = 0 :=
  ⟨fun h => by rw [← g.wi_w R.c_ne x, h, Frame.wi, mulVec_zero, smul_zero], fun h => by rw [h, Frame.w_zero]⟩

theorem kkt_split (x0 : Vec n ℝ) (v : Var n m p ℝ) (co : (i : ℕ) → Coeff n (m i) (p i) ℝ) (t : TCoeff n ℝ) :
    calcKktError N 0 x0 v co t = Real.sqrt (sqNorm (x0 - v.x 0) + ∑ i ∈ Finset.range N, (sqNorm (co i).xbar + sqNorm (co i).gbar +
      sqNorm (co i).Lxbar + sqNorm (co i).Lubar + sqNorm (complError 0 (v.s i) (v.nu i))) + sqNorm t.Lxbar) := by
  unfold calcKktError
  rw [sqrt_real, zero_add, ← forUp_add]
  congr 3
  funext i e
  ring

theorem complError_units {k : ℕ} (s nu : Vec k ℝ) : complError 0 ((R.G k).v s) ((R.G k).w nu) = R.c • complError 0 s nu := by
  funext j
  rw [Pi.smul_apply, smul_eq_mul]
  unfold complError
  rw [R.G_v, R.G_w, fmax_real, fmax_real, sub_zero, sub_zero, mul_max_of_nonneg _ _ R.pos.le, mul_zero]
  congr 1
  have h := mul_inv_cancel₀ (R.D_ne k j)
  linear_combination R.c * s j * nu j * h

theorem sqNorm_nonneg' {k : ℕ} (x : Vec k ℝ) : 0 ≤ sqNorm x := by
  rw [dot_self_eq]; exact Finset.sum_nonneg fun j _ => sq_nonneg _

/-- With equal lengths the KKT error is the same. -/
theorem kkt_isometric (h : R.Isometric) (w : Solver n m p ℝ) :
    calcKktError N 0 (R.into x0) (R.solver N tr w).var (R.solver N tr w).coeff (R.solver N tr w).term =
      calcKktError N 0 x0 w.var w.coeff w.term := by
  have hG : ∀ k, (R.G k).Mᵀ * (R.G k).M = 1 := by
    intro k
    show (diagonal (R.D k))ᵀ * diagonal (R.D k) = 1
    rw [diagonal_transpose, diagonal_mul_diagonal, ← diagonal_one]
    congr 1
    funext j
    rw [h.D, one_mul]
  have hc : ∀ {k : ℕ} (x : Vec k ℝ), sqNorm (R.c • x) = sqNorm x := fun x => by rw [h.c, one_smul]
  rw [kkt_split, kkt_split]
  rw [show (R.solver N tr w).var.x 0 = R.into (w.var.x 0) from R.var_x (Nat.zero_le _) _, into_sub]
  unfold solver coeff term var
  simp only [R.sq_v h.X, R.sq_w h.c h.X, R.sq_w h.c (h.U _), R.sq_v (hG _), complError_units, hc]

/-- The KKT error vanishes in both units or in none. -/
theorem kkt_zero (w : Solver n m p ℝ) :
    calcKktError N 0 (R.into x0) (R.solver N tr w).var (R.solver N tr w).coeff (R.solver N tr w).term ≤ 0 ↔
      calcKktError N 0 x0 w.var w.coeff w.term ≤ 0 := by
  have key : ∀ (x0 : Vec n ℝ) (v : Var n m p ℝ) (co : (i : ℕ) → Coeff n (m i) (p i) ℝ) (t : TCoeff n ℝ),
      calcKktError N 0 x0 v co t ≤ 0 ↔ x0 - v.x 0 = 0 ∧ (∀ i < N, (co i).xbar = 0 ∧ (co i).gbar = 0 ∧ (co i).Lxbar = 0 ∧
        (co i).Lubar = 0 ∧ complError 0 (v.s i) (v.nu i) = 0) ∧ t.Lxbar = 0 := by
    intro x0 v co t
    have hn : ∀ i ∈ Finset.range N, 0 ≤ sqNorm (co i).xbar + sqNorm (co i).gbar + sqNorm (co i).Lxbar + sqNorm (co i).Lubar +
        sqNorm (complError 0 (v.s i) (v.nu i)) := fun i _ => by
      have h1 := sqNorm_nonneg' (co i).xbar
      have h2 := sqNorm_nonneg' (co i).gbar
      have h3 := sqNorm_nonneg' (co i).Lxbar
      have h4 := sqNorm_nonneg' (co i).Lubar
      have h5 := sqNorm_nonneg' (complError 0 (v.s i) (v.nu i))
      linarith
    have ha := sqNorm_nonneg' (x0 - v.x 0)
    have hz := sqNorm_nonneg' t.Lxbar
    have hs := Finset.sum_nonneg hn
    rw [kkt_split, Real.sqrt_le_iff]
    constructor
    · rintro ⟨-, h⟩
      have h0 := le_antisymm (by linarith) hs
      refine ⟨sq_zero.1 (by linarith), fun i hi => ?_, sq_zero.1 (by linarith)⟩
      have hi' := (Finset.sum_eq_zero_iff_of_nonneg hn).1 h0 i (Finset.mem_range.2 hi)
      have h1 := sqNorm_nonneg' (co i).xbar
      have h2 := sqNorm_nonneg' (co i).gbar
      have h3 := sqNorm_nonneg' (co i).Lxbar
      have h4 := sqNorm_nonneg' (co i).Lubar
      have h5 := sqNorm_nonneg' (complError 0 (v.s i) (v.nu i))
      exact ⟨sq_zero.1 (by linarith), sq_zero.1 (by linarith), sq_zero.1 (by linarith), sq_zero.1 (by linarith), sq_zero.1 (by linarith)⟩
    · rintro ⟨h1, h2, h3⟩
      refine ⟨le_rfl, ?_⟩
      rw [sq_zero.2 h1, sq_zero.2 h3, Finset.sum_eq_zero fun i hi => ?_]
      · norm_num
      · obtain ⟨a1, a2, a3, a4, a5⟩ := h2 i (Finset.mem_range.1 hi)
        rw [sq_zero.2 a1, sq_zero.2 a2, sq_zero.2 a3, sq_zero.2 a4, sq_zero.2 a5]
        norm_num
  rw [key, key]
  rw [show (R.solver N tr w).var.x 0 = R.into (w.var.x 0) from R.var_x (Nat.zero_le _) _, into_sub]
  unfold solver coeff term var
  simp only [R.v_eq_zero, R.w_eq_zero, complError_units, smul_eq_zero, R.c_ne, false_or]

/-- When the two runs stop at the same time. -/
theorem stop_units (hk : cfg.kktErrorThre ≤ 0 ∨ R.Isometric) (w : Solver n m p ℝ) :
    leb (calcKktError N 0 (R.into x0) (R.solver N tr w).var (R.solver N tr w).coeff (R.solver N tr w).term) cfg.kktErrorThre =
      leb (calcKktError N 0 x0 w.var w.coeff w.term) cfg.kktErrorThre := by
  rcases hk with hk | hk
  · have hnn : ∀ (x0 : Vec n ℝ) (v : Var n m p ℝ) (co : (i : ℕ) → Coeff n (m i) (p i) ℝ) (t : TCoeff n ℝ),
        0 ≤ calcKktError N 0 x0 v co t := fun _ _ _ _ => by rw [kkt_split]; exact Real.sqrt_nonneg _
    rw [Bool.eq_iff_iff, leb_real, leb_real]
    rcases hk.lt_or_eq with hk | hk
    · exact ⟨fun h => absurd (h.trans_lt hk) (not_lt.2 (hnn _ _ _ _)), fun h => absurd (h.trans_lt hk) (not_lt.2 (hnn _ _ _ _))⟩
    · rw [hk]; exact R.kkt_zero w
  · rw [R.kkt_isometric hk]

/-! ## The loop -/

/-- Traces with the same iteration numbers (and, for equal lengths, the same errors). -/
def TrRel (t t' : List (Trace ℝ)) : Prop := t'.map Trace.iter = t.map Trace.iter ∧ (R.Isometric → t' = t)

/-- The state of the solver in the old and in the new units. -/
def WRel (N : ℕ) (cfg : Config ℝ) (w w' : Solver n m p ℝ) : Prop := WEq N cfg w' (R.solver N w'.trace w) ∧ R.TrRel w.trace w'.trace

theorem weq_trans {w1 w2 w3 : Solver n m p ℝ} (h : WEq N cfg w1 w2) (h' : WEq N cfg w2 w3) : WEq N cfg w1 w3 where
  var := ⟨fun i hi => (h.var.x i hi).trans (h'.var.x i hi), fun i hi => (h.var.u i hi).trans (h'.var.u i hi),
    fun i hi => (h.var.lam i hi).trans (h'.var.lam i hi), fun i hi => (h.var.s i hi).trans (h'.var.s i hi),
    fun i hi => (h.var.nu i hi).trans (h'.var.nu i hi)⟩
  trace := h.trace.trans h'.trace
  eps := by
    rcases h.eps with h1 | h1
    · exact .inl h1
    · rcases h'.eps with h2 | h2
      · exact .inl h2
      · exact .inr (h1.trans h2)
  unset := by
    rcases h.unset with h1 | h1
    · exact .inl h1
    · rcases h'.unset with h2 | h2
      · exact .inl h2
      · exact .inr (h1.trans h2)

section Loop
variable (hL : ∀ i < N, lin.Fits (R.U (m i))) (hls : cfg.enableLineSearch = false) (hu : cfg.updateBarrierEps = false ∨ R.c = 1)
  (hk : cfg.kktErrorThre ≤ 0 ∨ R.Isometric)
include hL hls hu hk

theorem procOnce_exact (iter : ℕ) {w : Solver n m p ℝ} (hw : w.var.Pos N) (ht : R.TrRel w.trace tr) :
    REq (fun q q' => q.2 = q'.2 ∧ R.WRel N cfg q.1 q'.1) (procOnce lin N cfg S x0 iter w)
      (procOnce lin N cfg (R.stages S) (R.into x0) iter (R.solver N tr w)) := by
  unfold procOnce
  rw [R.prepare_units hu]
  cases hp : prepare N cfg S w with
  | ok w1 =>
    have hw1 : w1.var.Pos N := by
      unfold prepare at hp
      generalize (if cfg.updateBarrierEps = true then updateEps N w.var else Res.ok w.eps) = e at hp
      cases e <;> cases hp
      exact hw
    simp only [Res.map, Res.bind]
    rw [R.stop_units hk]
    have hkk := fun h => R.kkt_isometric (N := N) (x0 := x0) (tr := tr) h w1
    generalize calcKktError N 0 (R.into x0) (R.solver N tr w1).var (R.solver N tr w1).coeff (R.solver N tr w1).term = kkt' at *
    generalize calcKktError N 0 x0 w1.var w1.coeff w1.term = kkt at *
    have htr : R.TrRel (w.trace ++ [{ iter := iter, kktError := kkt }])
        ((R.solver N tr w).trace ++ [{ iter := iter, kktError := kkt' }]) := by
      refine ⟨?_, fun h => ?_⟩
      · show (tr ++ _).map _ = _
        rw [List.map_append, List.map_append, ht.1]
        rfl
      · show tr ++ _ = _
        rw [ht.2 h, hkk h]
    generalize w.trace ++ [{ iter := iter, kktError := kkt }] = t at *
    generalize (R.solver N tr w).trace ++ [{ iter := iter, kktError := kkt' }] = t' at *
    have refl : ∀ w2 : Solver n m p ℝ, w2.trace = t → R.WRel N cfg w2 (R.solver N t' w2) := fun w2 h2 =>
      ⟨⟨⟨fun _ _ => rfl, fun _ _ => rfl, fun _ _ => rfl, fun _ _ => rfl, fun _ _ => rfl⟩, rfl, .inr rfl, .inr rfl⟩, by rw [h2]; exact htr⟩
    split
    · exact ⟨rfl, refl { w1 with trace := t } rfl⟩
    · have hb := R.backwardPass_units (cfg := cfg) (S := S) (tr := t') hL { w1 with trace := t }
      rw [show backwardPass lin N cfg (R.stages S) { R.solver N tr w1 with trace := t' } = _ from hb]
      have fb := backwardPass_frame (L := lin) (N := N) (cfg := cfg) (S := S) { w1 with trace := t }
      generalize backwardPass lin N cfg S { w1 with trace := t } = bp at *
      obtain ⟨ok, w2⟩ := bp
      cases ok with
      | false => exact ⟨rfl, refl w2 fb.2.2⟩
      | true =>
        simp only [if_true]
        rw [R.forwardPass_units]
        have ff := forwardPass_frame (N := N) (cfg := cfg) (x0 := x0) w2
        generalize forwardPass N cfg x0 w2 = fp at *
        obtain ⟨ok, w3⟩ := fp
        have hv3 : w3.var = w1.var := ff.1.trans fb.1
        have ht3 : w3.trace = t := ff.2.2.trans fb.2.2
        cases ok with
        | false => exact ⟨rfl, refl w3 ht3⟩
        | true =>
          simp only [if_true]
          obtain ⟨a, b, h1, h2, h3, h4⟩ := R.updateVariables_units (S := S) (x0 := x0) (tr := t') hls w3 (by rw [hv3]; exact hw1)
          rw [h1, h2]
          refine ⟨rfl, ?_, ?_⟩
          · have : b.trace = t' := h3.trace
            dsimp only
            rw [this]; exact h3
          · have : b.trace = t' := h3.trace
            dsimp only
            rw [this, h4, ht3]; exact htr
  | _ => exact trivial

theorem procOnce_units (hS : S.Overwrites) (iter : ℕ) {w w' : Solver n m p ℝ} (hw : w.var.Pos N) (h : R.WRel N cfg w w') :
    REq (fun q q' => q.2 = q'.2 ∧ R.WRel N cfg q.1 q'.1) (procOnce lin N cfg S x0 iter w)
      (procOnce lin N cfg (R.stages S) (R.into x0) iter w') := by
  have h1 := procOnce_congr (L := lin) (x0 := R.into x0) (R.stages_overwrites hS) iter h.1
  have h2 := R.procOnce_exact (S := S) (x0 := x0) hL hls hu hk iter hw h.2
  generalize procOnce lin N cfg (R.stages S) (R.into x0) iter w' = q' at *
  generalize procOnce lin N cfg (R.stages S) (R.into x0) iter (R.solver N w'.trace w) = q1 at *
  generalize procOnce lin N cfg S x0 iter w = q at *
  cases q <;> cases q1 <;> first | exact False.elim h2 | skip
  all_goals cases q' <;> first | exact False.elim h1 | exact trivial | skip
  obtain ⟨a1, a2⟩ := h1
  obtain ⟨b1, b2, b3⟩ := h2
  refine ⟨b1.trans a1.symm, ?_, ?_⟩
  · have := weq_trans a2 b2
    rwa [← a2.trace] at this
  · rw [a2.trace]; exact b3

theorem optLoop_units (hS : S.Overwrites) (r iter : ℕ) (st : Status) {w w' : Solver n m p ℝ} (hw : w.var.Pos N) (h : R.WRel N cfg w w') :
    REq (fun q q' => q.2 = q'.2 ∧ R.WRel N cfg q.1 q'.1) (optLoop lin N cfg S x0 r iter st w)
      (optLoop lin N cfg (R.stages S) (R.into x0) r iter st w') := by
  induction r generalizing iter st w w' with
  | zero => exact ⟨rfl, h⟩
  | succ r ih =>
    unfold optLoop
    have hp := R.procOnce_units (S := S) (x0 := x0) hL hls hu hk hS iter hw h
    cases hq : procOnce lin N cfg S x0 iter w with
    | ok q =>
      rw [hq] at hp
      have hpos := (procOnce_pos (w' := q.1) (st := q.2) hw hq).1
      generalize procOnce lin N cfg (R.stages S) (R.into x0) iter w' = q' at *
      cases q' <;> first | exact False.elim hp | skip
      obtain ⟨h1, h2⟩ := hp
      dsimp only [Res.bind_ok]
      rw [← h1]
      split
      · exact ⟨h1, h2⟩
      · exact ih _ _ hpos h2
    | _ =>
      rw [hq] at hp
      generalize procOnce lin N cfg (R.stages S) (R.into x0) iter w' = q' at *
      cases q' <;> first | exact False.elim hp | exact trivial

theorem runSolver_units (hS : S.Overwrites) {w w' : Solver n m p ℝ} (hw : w.var.Pos N) (h : R.WRel N cfg w w') :
    REq (fun q q' => q.2 = q'.2 ∧ R.WRel N cfg q.1 q'.1) (runSolver lin N cfg S x0 w) (runSolver lin N cfg (R.stages S) (R.into x0) w') := by
  unfold runSolver
  have ho := R.optLoop_units (S := S) (x0 := x0) hL hls hu hk hS cfg.maxIter.toNat 1 .uninitialized hw h
  generalize optLoop lin N cfg S x0 cfg.maxIter.toNat 1 .uninitialized w = q at *
  generalize optLoop lin N cfg (R.stages S) (R.into x0) cfg.maxIter.toNat 1 .uninitialized w' = q' at *
  cases q <;> cases q' <;> first | exact False.elim ho | exact trivial | skip
  rename_i q q'
  obtain ⟨h1, h2⟩ := ho
  dsimp only [Res.bind_ok]
  have ht : q'.1.trace = [] ↔ q.1.trace = [] := by
    rw [← List.map_eq_nil_iff (f := Trace.iter), h2.2.1, List.map_eq_nil_iff]
  rw [← h1]
  by_cases hub : 3 ≤ cfg.printLevel ∧ q.1.trace = []
  · rw [if_pos hub, if_pos ⟨hub.1, ht.2 hub.2⟩]
    exact trivial
  · have hub' : ¬(3 ≤ cfg.printLevel ∧ q'.1.trace = []) := fun hh => hub ⟨hh.1, ht.1 hh.2⟩
    rw [if_neg hub, if_neg hub']
    exact ⟨rfl, h2⟩

end Loop

end Units

end Nmpc.FMPC
