import Verif.Base.Scalar
import Verif.Base.Loop

/-!
# Model of `nmpc_cgmres::Gmres`

Source: nmpc_cgmres/include/nmpc_cgmres/Gmres.h.

The operator `Amul_func` is an arbitrary function on vectors (in `CgmresSolver` it is a finite difference and not
linear).  `b` and `x` have the same size (otherwise Eigen's size assertions fail).  The matrix `H_` and the vectors `g_`,
`y_k`, `c_list`, `s_list`, `basis_` are functions of `ℕ`; all accesses are below the sizes of the C++ containers: rows
`≤ k ≤ k_max`, columns `< k ≤ k_max`, basis vectors `≤ k`.
-/

namespace Nmpc.Gmres

variable {α : Type} [Add α] [Sub α] [Mul α] [Div α] [Neg α] [Zero α] [One α] [FOps α]

/-- The two dense solvers of Eigen used by the code (Gmres.h 172 and 184): `householderQr().solve` on a matrix with one
row more than columns, and `triangularView<Upper>().solve`. -/
structure Dense (α : Type) where
  qr : {k : ℕ} → Mat (k + 1) k α → Vec (k + 1) α → Vec k α
  tri : {k : ℕ} → Mat k k α → Vec k α → Vec k α

/-- Public members `make_triangular_`, `apply_reorth_` (Gmres.h 195-196) and the parameters `k_max`, `eps`
(Gmres.h 45-46, 70-71). -/
structure Config (α : Type) where
  makeTriangular : Bool
  applyReorth : Bool
  kMax : ℤ
  eps : α

/-- Eigen `v.normalized()`: a vector whose squared norm is not positive is returned unchanged. -/
def normalized {n : ℕ} (v : Vec n α) : Vec n α :=
  if ltb 0 (sqNorm v) then fun i => v i / FOps.sqrt (sqNorm v) else v

/-- Local variables and members during `solve`.  `y` is `y_k`. -/
structure State (n : ℕ) (α : Type) where
  k : ℕ
  basis : ℕ → Vec n α
  H : ℕ → ℕ → α
  g : ℕ → α
  c : ℕ → α
  s : ℕ → α
  y : ℕ → α
  rho : α
  err : List α

variable {n : ℕ}

/-- Modified Gram-Schmidt (Gmres.h 104-110): the loop over `j < k` writing column entries `h`. -/
def mgs (v : ℕ → Vec n α) (k : ℕ) (h : ℕ → α) (w : Vec n α) : (ℕ → α) × Vec n α :=
  forUp k (fun j q =>
    let a := FOps.dot q.2 (v j)
    (Function.update q.1 j a, q.2 - smulv a (v j))) (h, w)

/-- Reorthogonalisation (Gmres.h 123-128). -/
def reorth (v : ℕ → Vec n α) (k : ℕ) (h : ℕ → α) (w : Vec n α) : (ℕ → α) × Vec n α :=
  forUp k (fun j q =>
    let a := FOps.dot q.2 (v j)
    (Function.update q.1 j (q.1 j + a), q.2 - smulv a (v j))) (h, w)

/-- Steps (b)-(d) of iteration `k0 + 1` (Gmres.h 102-130): column `k0` of the Hessenberg matrix and the new direction
before normalisation. -/
def arnoldi (reo : Bool) (v : ℕ → Vec n α) (k0 : ℕ) (h : ℕ → α) (Av : Vec n α) : (ℕ → α) × Vec n α :=
  let q := mgs v (k0 + 1) h Av
  let nb := vnorm q.2
  let h := Function.update q.1 (k0 + 1) nb
  if reo && eqb (vnorm Av + lit (1 / 1000) * nb) (vnorm Av) then reorth v (k0 + 1) h q.2 else (h, q.2)

/-- One Givens rotation on the entries `i`, `i + 1` (Gmres.h 141-146 and 161-164). -/
def rot (c s : α) (i : ℕ) (z : ℕ → α) : ℕ → α :=
  Function.update (Function.update z i (c * z i - s * z (i + 1))) (i + 1) (s * z i + c * z (i + 1))

/-- The previous rotations applied to the new column (Gmres.h 139-147). -/
def rots (c s : ℕ → α) (k : ℕ) (z : ℕ → α) : ℕ → α := forUp k (fun i z => rot (c i) (s i) i z) z

/-- Leading block of `H_`. -/
def block (H : ℕ → ℕ → α) (r k : ℕ) : Mat r k α := fun i j => H i j

/-- First entries of a vector. -/
def vhead (g : ℕ → α) (k : ℕ) : Vec k α := fun i => g i

/-- A vector of length `k` as a function of `ℕ` (only entries below `k` are read). -/
def ofVec {k : ℕ} (y : Vec k α) : ℕ → α := fun i => if h : i < k then y ⟨i, h⟩ else 0

/-- Replace column `j`. -/
def setCol (H : ℕ → ℕ → α) (j : ℕ) (h : ℕ → α) : ℕ → ℕ → α := fun i l => if l = j then h i else H i l

/-- Givens step of iteration `k0 + 1` (Gmres.h 137-167, 178; `std::pow(a, 2)` is `a * a`) for the Arnoldi column `h`. -/
def triStep (st : State n α) (h : ℕ → α) : State n α :=
  let k0 := st.k
  let h := rots st.c st.s k0 h
  let nu := FOps.sqrt (h k0 * h k0 + h (k0 + 1) * h (k0 + 1))
  let ck := h k0 / nu
  let sk := -h (k0 + 1) / nu
  let h' := Function.update (Function.update h k0 (ck * h k0 - sk * h (k0 + 1))) (k0 + 1) 0
  let g := rot ck sk k0 st.g
  let rho := FOps.abs (g (k0 + 1))
  { st with
    k := k0 + 1, H := setCol st.H k0 h', g := g, c := Function.update st.c k0 ck, s := Function.update st.s k0 sk
    rho := rho, err := st.err ++ [rho] }

/-- Least-squares step of iteration `k0 + 1` (Gmres.h 171-178). -/
def lsqStep (L : Dense α) (st : State n α) (h : ℕ → α) : State n α :=
  let k := st.k + 1
  let H := setCol st.H st.k h
  let y := L.qr (block H (k + 1) k) (vhead st.g (k + 1))
  let rho := vnorm (vhead st.g (k + 1) - FOps.mulVec (block H (k + 1) k) y)
  { st with k := k, H := H, y := ofVec y, rho := rho, err := st.err ++ [rho] }

/-- One round of the `while` loop (Gmres.h 94-179). -/
def iter (L : Dense α) (cfg : Config α) (A : Vec n α → Vec n α) (st : State n α) : State n α :=
  let q := arnoldi cfg.applyReorth st.basis st.k (fun i => st.H i st.k) (A (st.basis st.k))
  let st' := { st with basis := Function.update st.basis (st.k + 1) (normalized q.2) }
  if cfg.makeTriangular then triStep st' q.1 else lsqStep L st' q.1

/-- The `while` loop (Gmres.h 94-179) with at most `r = k_max - k` further rounds. -/
def loop (L : Dense α) (cfg : Config α) (A : Vec n α → Vec n α) (bnorm : α) : ℕ → State n α → State n α
  | 0, st => st
  | r + 1, st => if ltb (cfg.eps * bnorm) st.rho then loop L cfg A bnorm r (iter L cfg A st) else st

/-- Initialisation (Gmres.h 73-93). -/
def init (A : Vec n α → Vec n α) (b x : Vec n α) : State n α :=
  let r := b - A x
  { k := 0
    basis := fun _ => normalized r
    H := fun _ _ => 0
    g := fun i => if i = 0 then vnorm r else 0
    c := fun _ => 0
    s := fun _ => 0
    y := fun _ => 0
    rho := vnorm r
    err := [vnorm r] }

/-- `y_k` used in the final update (Gmres.h 172, 181-185). -/
def coef (L : Dense α) (cfg : Config α) (st : State n α) : ℕ → α :=
  if cfg.makeTriangular then ofVec (L.tri (block st.H st.k st.k) (vhead st.g st.k)) else st.y

/-- The final update of `x` (Gmres.h 187-191). -/
def update (st : State n α) (y : ℕ → α) (x : Vec n α) : Vec n α :=
  forUp st.k (fun i x => x + smulv (y i) (st.basis i)) x

/-- What is observable after `solve`: `x`, `err_list_`, `basis_`, `H_`, `g_`. -/
structure Out (n : ℕ) (α : Type) where
  x : Vec n α
  k : ℕ
  err : List α
  basis : List (Vec n α)
  H : ℕ → ℕ → α
  g : ℕ → α

/-- The result from the state after the loop. -/
def finish (L : Dense α) (cfg : Config α) (x : Vec n α) (st : State n α) : Out n α :=
  { x := update st (coef L cfg st) x
    k := st.k
    err := st.err
    basis := (List.range (st.k + 1)).map st.basis
    H := st.H
    g := st.g }

/-- `Gmres::solve` (Gmres.h 67-192).  With a negative `k_max` the vector `g_` has no element 0 (or a negative size). -/
def solve (L : Dense α) (cfg : Config α) (A : Vec n α → Vec n α) (b x : Vec n α) : Res (Out n α) :=
  if cfg.kMax < 0 then .ub
  else .ok (finish L cfg x (loop L cfg A (vnorm b) (min cfg.kMax n).toNat (init A b x)))

/-- `solve` with a matrix (Gmres.h 42-51). -/
def solveMat (L : Dense α) (cfg : Config α) (A : Mat n n α) (b x : Vec n α) : Res (Out n α) :=
  solve L cfg (FOps.mulVec A) b x

/-- Back substitution by columns as in Eigen's `triangularView<Upper>().solve` for column-major storage; a zero entry of
the right-hand side is left as it is. -/
def backSub {k : ℕ} (U : Mat k k α) (g : Vec k α) : Vec k α :=
  forDown k (fun i r => if h : i < k then
      if eqb (r ⟨i, h⟩) 0 then r
      else
        let yi := r ⟨i, h⟩ / U ⟨i, h⟩ ⟨i, h⟩
        fun j => if (j : ℕ) = i then yi else if (j : ℕ) < i then r j - yi * U j ⟨i, h⟩ else r j
    else r) g

end Nmpc.Gmres
